import Verif.Props.Assembled
/-!
# C104: multi-objective algorithms assembled with `CollectorGA` raise no exception
-/
namespace BaumEva
open Spec

/-! ## which programs are meant -/

/-- The selection can be used with vectors of scores: the tournament is smaller than the population; the roulette on scores has
target values, so that scores are positive. -/
def VegaSelectable (c : Cfg) (m : Nat) (ov : Option (List ℚ)) (s : St (List ℚ)) : VegaSelOp → Prop
  | .tournament size => 2 ≤ size ∧ size < c.numIndivid
  | .balanced => ov.isSome ∧ CalmUpTo (c.vegaLargest m .balanced) c.arith s
  | .ranked => CalmUpTo (c.vegaLargest m .ranked) c.arith s

/-- The components and parameters of a program with `VEGAFitness`, a selection for `m` objectives and `NewGeneration` fit together. -/
structure VegaAssembled (gray : Bool) (gens : List BinGene) (c : Cfg) (m n : Nat) (sel : VegaSelOp) (op : CrossOp) (mop : MutOp)
    (ov : Option (List ℚ)) (s : St (List ℚ)) : Prop where
  task : VectorTask gray gens c s.conds n
  operators : Matching (.binary gray gens) op mop
  selection : VegaSelectable c m ov s sel
  one : 1 ≤ m
  enough : m ≤ n
  target : ∀ ts, ov = .some ts → n ≤ ts.length
  two : 2 ≤ c.numIndivid
  transfer : c.transfer = "best" ∨ (c.transfer = "random" ∧ m ≤ 2 ^ 53 ∧ m ≤ c.childrenPercent * c.numIndivid)

/-- The selection can be used with `MultiNewGeneration`. The number of members varies from generation to generation, a tournament
must not be larger than the smallest population; `RankedSelection` overwrites the ranks `MultiNewGeneration` looks at, so there
have to be children. -/
def FfgaSelectable (c : Cfg) (s : St ℚ) : SelOp → Prop
  | .tournament size => 2 ≤ size ∧ size < c.numIndivid ∧ (c.transfer = "best" → size ≤ c.children + 1) ∧
      (c.transfer = "random" → size ≤ c.children + 11)
  | .balanced => CalmUpTo c.ffgaLargest c.arith s
  | .ranked => CalmUpTo c.ffgaLargest c.arith s ∧ (c.transfer = "best" → 1 ≤ c.children)

/-- The components and parameters of a program with `FFGAFitness` and `MultiNewGeneration` fit together. -/
structure FfgaAssembled (gray : Bool) (gens : List BinGene) (c : Cfg) (sel : SelOp) (op : CrossOp) (mop : MutOp) (s : St ℚ) : Prop where
  call : FfgaCall gray gens c s.conds
  operators : Matching (.binary gray gens) op mop
  selection : FfgaSelectable c s sel

/-! ## no exceptions -/

theorem level_for {gray : Bool} {gens : List BinGene} {op : CrossOp} {mop : MutOp} (hM : Matching (.binary gray gens) op mop) {lvl : MutLvl}
    (h : (SingleFacade.binary gray gens).Level lvl) : LevelFor mop lvl := by
  rcases h with h | ⟨_, h⟩
  · exact .inl h
  · refine .inr ⟨?_, h⟩
    rintro rfl
    rcases hM.2.1 with e | e | e | e | e <;> cases e

/-- C104: a program assembled from the components of VEGA raises no exception. -/
theorem C104_vega_no_exception {gray : Bool} {gens : List BinGene} {c : Cfg} {m n : Nat} {sel : VegaSelOp} {op : CrossOp} {mop : MutOp}
    {ov : Option (List ℚ)} {s s' : St (List ℚ)} {e : PyErr} (ha : VegaAssembled gray gens c m n sel op mop ov s)
    (h : collectorVega c (.binary gray gens) m sel op mop ov s = (.error e, s')) : e = .exhausted ∧ s'.tape = [] := by
  suffices hs : Safe (collectorVega c (SingleFacade.binary gray gens).spec m sel op mop ov) s from hs e s' h
  clear h
  have ht := ha.task
  unfold collectorVega
  refine collector_safe (multi_newFitness_safe rfl s) ht.genes ht.input ht.room ht.arith (level_for ha.operators ht.level) ?_ ?_
  · rcases ha.transfer with h | h
    · rw [h]; exact ⟨_, rfl⟩
    · rw [h.1]; exact ⟨_, rfl⟩
  intro fit tr sb s0 hfit htr hmod hlvl hst
  have hsafe : MultiSafe (vegaOps fit m sel op mop tr) fit op mop (BitsOf s0.ga.attrs) s0 := by
    refine And.left <| vega_multiSafe_all ht ha.operators (.inl ha.one) ha.enough ha.target ha.two ?_ hfit hlvl hst ?_
    · rintro rfl
      rcases ha.transfer with h' | ⟨_, hb, hle⟩
      · rw [h'] at htr; simp [checkTransfer] at htr
      · have h1 := share_pos ht.arith.rounding ha.one hb hle
        cases sel with
        | tournament size =>
          have := Nat.mul_le_mul ha.one h1
          unfold Cfg.vegaPairs Cfg.vegaChildren
          simp only
          omega
        | balanced => exact h1
        | ranked => exact h1
    · intro k s7 hk har hN hal hsz hlarge hX
      have hsel := ha.selection
      have R : Rounding s7.ga.attrs.arith.rnd := by rw [har]; exact ht.arith.rounding
      have hne : s7.ga.population ≠ [] := by
        intro e'
        rw [e'] at hsz
        have := ha.two
        simp at hsz
        omega
      have hD : ∀ D, Modest D s → Modest D s7 := fun D hD =>
        hk.keeps (modest_frame D) (vegaOps_frame (modest_frame D) fit m sel op mop tr) (hmod D hD)
      cases sel with
      | tournament size =>
        refine vegaTournamentExec_safe hsel.1 (by rw [hN]; exact hsel.2) (by rw [hN]; exact hsz) hal ?_
        intro r hr
        obtain ⟨l, e1, e2, _⟩ := hX r hr
        exact ⟨l, e1, e2⟩
      | balanced =>
        refine vegaBalancedExec_safe R (by rw [har]; exact hsel.2.frame hD) hlarge hal hne ?_
        intro r hr
        obtain ⟨l, e1, e2, e3⟩ := hX r hr
        exact ⟨l, e1, e2, e3 hsel.1⟩
      | ranked =>
        refine vegaRankedExec_safe R (by rw [har]; exact CalmUpTo.frame hsel hD) hlarge hal hne ?_
        intro r hr
        obtain ⟨l, e1, e2, _⟩ := hX r hr
        exact ⟨l, e1, e2⟩
  exact ⟨hsafe.evolve, fun k s7 hk => hsafe.print hk⟩

/-- C104: a program assembled from the components of FFGA raises no exception. -/
theorem C104_ffga_no_exception {gray : Bool} {gens : List BinGene} {c : Cfg} {sel : SelOp} {op : CrossOp} {mop : MutOp} {s s' : St ℚ} {e : PyErr}
    (ha : FfgaAssembled gray gens c sel op mop s)
    (h : collectorFfga c (.binary gray gens) sel op mop s = (.error e, s')) : e = .exhausted ∧ s'.tape = [] := by
  suffices hs : Safe (collectorFfga c (SingleFacade.binary gray gens).spec sel op mop) s from hs e s' h
  clear h
  obtain ⟨n, ht⟩ := ha.call.task
  unfold collectorFfga
  refine collector_safe (multi_newFitness_safe rfl s) ht.genes ht.input ht.room ht.arith (level_for ha.operators ht.level) ?_ ?_
  · rcases ha.call.transfer with h | h
    · rw [h]; exact ⟨_, rfl⟩
    · rw [h.1]; exact ⟨_, rfl⟩
  intro fit tr sb s0 hfit htr hmod hlvl hst
  have hbest : tr = .best → c.transfer = "best" := by
    rintro rfl
    rcases ha.call.transfer with h | ⟨h, _⟩
    · exact h
    · rw [h] at htr; simp [checkTransfer] at htr
  have hrandom : tr = .random → c.transfer = "random" := by
    rintro rfl
    rcases ha.call.transfer with h | ⟨h, _⟩
    · rw [h] at htr; simp [checkTransfer] at htr
    · exact h
  have hsel := ha.selection
  have hsafe : MultiSafe (ffgaOps fit sel op mop tr) fit op mop (BitsOf s0.ga.attrs) s0 := by
    refine And.left <| ffga_multiSafe_all ha.call ha.operators hfit htr hlvl hst ?_ ?_
    · rintro rfl hb
      exact hsel.2 (hbest hb)
    · intro k s7 hk _ har hN hal hne hlarge hfew hX
      have R : Rounding s7.ga.attrs.arith.rnd := by rw [har]; exact ht.arith.rounding
      have hD : ∀ D, Modest D s → Modest D s7 := fun D hD =>
        hk.keeps (modest_frame D) (ffgaOps_frame (modest_frame D) fit sel op mop tr) (hmod D hD)
      have hcore : ∀ a b : Ind ℚ, SameCore a b → scoreKey b = scoreKey a := fun a b h => by unfold scoreKey; rw [h.score]
      have hkey : Keyed scoreKey s7 := by
        intro r hr
        obtain ⟨v, hv, _⟩ := hX r hr
        exact ⟨v, by unfold scoreKey; rw [hv]⟩
      cases sel with
      | tournament size =>
        refine tournamentExec_safe_of hsel.1 (by rw [hN]; exact hsel.2.1) ?_ hal hkey
        have h1 := hfew (by simp)
        have h2 := hsel.2.1
        cases tr with
        | best =>
          have h3 := hsel.2.2.1 (hbest rfl)
          unfold Cfg.ffgaFewest at h1
          simp only at h1
          omega
        | random =>
          have h3 := hsel.2.2.2 (hrandom rfl)
          unfold Cfg.ffgaFewest at h1
          simp only at h1
          omega
      | balanced =>
        refine balanced_calm hcore R (by rw [har]; exact CalmUpTo.frame hsel hD) hlarge hal hne ?_
        intro r hr
        obtain ⟨v, hv, h0⟩ := hX r hr
        exact ⟨v, by unfold scoreKey; rw [hv], h0⟩
      | ranked =>
        exact ranked_calm rankOps_score hcore (fun _ _ h => h) R (by rw [har]; exact hsel.1.frame hD) hlarge hal hne
          (fun r hr => ⟨hkey r hr, trivial⟩)
  exact ⟨hsafe.evolve, fun k s7 hk => hsafe.print hk⟩

/-! ## the population has to be a binary one -/

/-- Writing ranks does not touch phenotypes. -/
theorem setRank_phenotype {σ : Type} {q : ℚ} : ∀ {l : List Nat} {s s' : St σ} {u : Unit},
    forEach l (fun r => modInd r fun ind => { ind with rank := some (.sc q) }) s = (.ok u, s') →
    ∀ r, (s'.heap r).phenotype = (s.heap r).phenotype := by
  intro l
  induction l with
  | nil =>
    intro s s' u h r
    rw [forEach_nil] at h
    rw [← (Prod.mk.inj h).2]
  | cons x l ih =>
    intro s s' u h r
    obtain ⟨s1, h1, h2⟩ := forEach_cons_ok.mp h
    rw [modInd_ok] at h1
    rw [ih h2 r, h1]
    by_cases hr : r = x
    · subst hr; simp only [upd_same]
    · simp only [upd_ne hr]

/-- Ranking two individuals without phenotypes fails. -/
theorem multiFitness_needs_phenotype {σ : Type} {fit : Fit σ} {s s' : St σ} {u : Unit} (hp : s.ga.attrs.isPhenotype = false)
    (h2 : 2 ≤ s.ga.population.length) (hn : ∀ r ∈ s.ga.population, (s.heap r).phenotype = none)
    (h : multiFitnessExec fit s = (.ok u, s')) : False := by
  unfold multiFitnessExec ensurePhenotype at h
  obtain ⟨_, s1, h1, hb⟩ := bind_ok.mp h
  rw [bind_of_ok (getGa_run s), ite_run, if_neg (by rw [hp]; simp)] at h1
  obtain ⟨_, rfl⟩ := pure_ok.mp h1
  obtain ⟨_, s2, h3, _⟩ := bind_ok.mp hb
  unfold assignRanks at h3
  rw [bind_of_ok (getGa_run _)] at h3
  obtain ⟨_, s3, h4, h5⟩ := bind_ok.mp h3
  have hph := setRank_phenotype h4
  cases hpop : s1.ga.population with
  | nil => rw [hpop] at h2; simp at h2
  | cons x xs =>
    cases xs with
    | nil => rw [hpop] at h2; simp at h2
    | cons y ys =>
      rw [hpop, rankLoop] at h5
      obtain ⟨_, s4, h6, _⟩ := bind_ok.mp h5
      obtain ⟨s5, h7, _⟩ := forEach_cons_ok.mp h6
      unfold rankPair at h7
      obtain ⟨v, s6, h8, _⟩ := bind_ok.mp h7
      unfold objVector at h8
      rw [bind_of_ok (getInd_run x s3)] at h8
      have : (s3.heap x).phenotype = none := by rw [hph x]; exact hn x (by rw [hpop]; simp)
      rw [this] at h8
      simp only [throwE_ok] at h8

/-- C104: multi-objective programs run with binary populations only: with any other population of at least two individuals no program
that uses `MultiFitness` comes to an end. -/
theorem C104_needs_binary {σ : Type} {c : Cfg} {spec : PopSpec} {task : Task σ} {mop : MutOp} {ops : Fit σ → Transfer → Ops σ} {s s' : St σ}
    (hops : ∀ fit tr, (ops fit tr).fitness = multiFitnessExec fit) (hspec : ∀ gray gens, spec ≠ .binary gray gens) (h2 : 2 ≤ c.numIndivid) :
    collector c spec task mop ops s ≠ (.ok (), s') := by
  intro h
  unfold collector at h
  obtain ⟨fit, s1, _, h⟩ := bind_ok.mp h
  obtain ⟨l, s2, _, h⟩ := bind_ok.mp h
  obtain ⟨_, s3, _, h⟩ := bind_ok.mp h
  obtain ⟨tr, s4, _, h⟩ := bind_ok.mp h
  obtain ⟨_, s0, hset, h⟩ := bind_ok.mp h
  have hst := collectorSetPopulation_ok hset
  obtain ⟨b4, _, b6, _⟩ := hst.cells
  have hp : s0.ga.attrs.isPhenotype = false := by
    rw [b6]
    cases spec with
    | binary gray gens => exact absurd rfl (hspec gray gens)
    | _ => rfl
  have hn : ∀ r ∈ s0.ga.population, (s0.heap r).phenotype = none := by
    obtain ⟨z1, hc⟩ := hst.created
    obtain ⟨_, _, hpop, _, _, gs, hl, _, _, hg⟩ := createPopulation_ok hc
    intro r hr
    rw [hpop, List.mem_range'_1] at hr
    obtain ⟨p, e, hif⟩ := hg (r - z1.next) gs[r - z1.next] (List.getElem?_eq_getElem (by omega))
    rw [show z1.next + (r - z1.next) = r by omega] at e
    rw [hp] at hif
    rw [e]
    simpa using hif
  unfold collectorOptimize evolve at h
  obtain ⟨_, s7, h7, _⟩ := bind_ok.mp h
  obtain ⟨_, s8, h8, _⟩ := bind_ok.mp h7
  rw [hops] at h8
  exact multiFitness_needs_phenotype hp (by rw [b4]; exact h2) hn h8

/-! ## concrete programs -/

/-- Crossover at two points and shift mutation fit the genes of the examples. -/
theorem exPair_matching : Matching (.binary true [⟨0, 3, 1⟩, ⟨-1, 1, 1 / 2⟩]) .twoPoint .shift :=
  ⟨.inr (.inl rfl), .inr (.inr (.inr (.inl rfl))), fun _ => .inr ⟨_, List.mem_cons_of_mem _ List.mem_cons_self, by norm_num [abs_of_pos]⟩⟩

/-- VEGA with ranks, `TwoPointCrossover` and `ShiftMutation`. -/
theorem exPair_vegaRanked : VegaAssembled true [⟨0, 3, 1⟩, ⟨-1, 1, 1 / 2⟩] exPairCfg 2 2 .ranked .twoPoint .shift none
    { tape := exTape } where
  task := exPair_task rfl rfl rfl rfl rfl (.inl rfl)
  operators := exPair_matching
  selection := .inl rfl
  one := by norm_num
  enough := le_rfl
  target := by simp
  two := by simp [exPairCfg]
  transfer := .inr ⟨rfl, by norm_num, by norm_num [exPairCfg]⟩

/-- VEGA with a roulette on scores and target values. -/
theorem exPair_vegaBalanced :
    VegaAssembled true [⟨0, 3, 1⟩, ⟨-1, 1, 1 / 2⟩] exPairCfg 2 2 .balanced .uniform .inversion (some [0, 0])
    { tape := exTape } where
  task := exPair_task rfl rfl rfl rfl rfl (.inl rfl)
  operators := ⟨.inr (.inr rfl), .inr (.inl rfl), by rintro (h | h) <;> cases h⟩
  selection := ⟨rfl, .inl rfl⟩
  one := by norm_num
  enough := le_rfl
  target := by rintro ts ⟨⟩; rfl
  two := by simp [exPairCfg]
  transfer := .inr ⟨rfl, by norm_num, by norm_num [exPairCfg]⟩

/-- FFGA with a tournament of four. -/
theorem exPair_ffgaTournament : FfgaAssembled true [⟨0, 3, 1⟩, ⟨-1, 1, 1 / 2⟩] { exPairCfg with transfer := "best" } (.tournament 4) .twoPoint .shift
    exHand where
  call := ⟨⟨2, exPair_task rfl rfl rfl rfl rfl (.inl rfl)⟩, by simp [exPairCfg], .inl rfl⟩
  operators := exPair_matching
  selection := by
    refine ⟨by norm_num, by simp [exPairCfg], fun _ => ?_, fun h => by simp at h⟩
    decide +kernel

/-- FFGA with ranks. -/
theorem exPair_ffgaRanked : FfgaAssembled true [⟨0, 3, 1⟩, ⟨-1, 1, 1 / 2⟩] { exPairCfg with transfer := "best" } .ranked .twoPoint .shift exHand where
  call := ⟨⟨2, exPair_task rfl rfl rfl rfl rfl (.inl rfl)⟩, by simp [exPairCfg], .inl rfl⟩
  operators := exPair_matching
  selection := by
    refine ⟨.inl rfl, fun _ => ?_⟩
    decide +kernel

/-! ## limits -/

set_option maxRecDepth 100000 in
/-- C104: a selection built for more objectives than the function returns raises `IndexError`. -/
theorem C104_too_many_objectives : ∃ (s : St (List ℚ)), VectorTask true [⟨0, 3, 1⟩, ⟨-1, 1, 1 / 2⟩] exPairCfg s.conds 2 ∧
    (collectorVega exPairCfg (.binary true [⟨0, 3, 1⟩, ⟨-1, 1, 1 / 2⟩]) 3 .balanced .uniform .inversion (some [0, 0]) s).1 = .error .indexError :=
  ⟨{ tape := exDraws 1500 (exSeed 3) }, exPair_task rfl rfl rfl rfl rfl (.inl rfl), by decide +kernel⟩

set_option maxRecDepth 100000 in
/-- C104: `TournamentSelection` compares its size with `num_individ` only, and under `MultiNewGeneration` populations shrink: a tournament of
eight out of twelve raises `ValueError` when seven individuals are left. -/
theorem C104_tournament_outgrows : ∃ (s s' : St ℚ), FfgaCall true [⟨0, 3, 1⟩, ⟨-1, 1, 1 / 2⟩] { exPairCfg with transfer := "best", childrenPercent := 1 / 12 } s.conds ∧
    collectorFfga { exPairCfg with transfer := "best", childrenPercent := 1 / 12 } (.binary true [⟨0, 3, 1⟩, ⟨-1, 1, 1 / 2⟩]) (.tournament 8) .uniform
      .inversion s = (.error .valueError, s') ∧ s'.ga.attrs.numIndivid = 12 ∧ s'.ga.population.length = 7 := by
  refine ⟨{ tape := exDraws 1500 (exSeed 3) }, _, ⟨⟨2, exPair_task rfl rfl rfl rfl rfl (.inl rfl)⟩, by simp [exPairCfg], .inl rfl⟩,
    Prod.ext ?_ rfl, ?_, ?_⟩
  · decide +kernel
  · decide +kernel
  · decide +kernel

set_option maxRecDepth 100000 in
/-- C104: `RankedSelection` with no children per generation leaves an empty population and raises `IndexError`. -/
theorem C104_ranked_empties : ∃ (s s' : St ℚ), FfgaCall true [⟨0, 3, 1⟩, ⟨-1, 1, 1 / 2⟩] { exPairCfg with transfer := "best", childrenPercent := 0 } s.conds ∧
    collectorFfga { exPairCfg with transfer := "best", childrenPercent := 0 } (.binary true [⟨0, 3, 1⟩, ⟨-1, 1, 1 / 2⟩]) .ranked .uniform
      .inversion s = (.error .indexError, s') ∧ s'.ga.population = [] := by
  refine ⟨{ tape := exDraws 1500 (exSeed 3) }, _, ⟨⟨2, exPair_task rfl rfl rfl rfl rfl (.inl rfl)⟩, by simp [exPairCfg], .inl rfl⟩,
    Prod.ext ?_ rfl, ?_⟩
  · decide +kernel
  · decide +kernel

set_option maxRecDepth 100000 in
/-- C104: a population of one categorical individual gets through its only generation and raises `KeyError` when the result is printed. -/
theorem C104_one_needs_binary : ∃ (c : Cfg) (s s' : St ℚ), c.numIndivid = 1 ∧
    collectorFfga c (.cat [.range 0 3 1, .values [.num 0, .num 5]]) .balanced .uniform .categorical s = (.error .keyError, s') ∧
    s'.snaps.length = 1 := by
  refine ⟨{ exPairCfg with transfer := "best", numIndivid := 1, numGenerations := 1, mutationLvl := .float (1 / 2) },
    { tape := exDraws 60 (exSeed 1) }, _, rfl, Prod.ext ?_ rfl, ?_⟩
  · decide +kernel
  · decide +kernel

set_option maxRecDepth 100000 in
/-- C55, limit: with `RankedSelection` the front is lost although `transfer_parents` is "best": the selection overwrites the Pareto ranks
`MultiNewGeneration` uses to recognise the front. Here the last Pareto set has no answer to a point evaluated before. -/
theorem C55_ranked_loses_front : ∃ (c : Cfg) (s s' : St ℚ), UniformVecs c.obj1 ∧ c.transfer = "best" ∧
    FfgaAssembled true [⟨0, 3, 1⟩, ⟨-1, 1, 1 / 2⟩] c .ranked .twoPoint .shift s ∧
    collectorFfga c (.binary true [⟨0, 3, 1⟩, ⟨-1, 1, 1 / 2⟩]) .ranked .twoPoint .shift s = (.ok (), s') ∧
    ∃ l ∈ s'.snaps, ∃ a ∈ l, ∀ b ∈ paretoSet s', ¬ AsGood (vecOf c.obj1 b) (vecOf c.obj1 a) := by
  refine ⟨{ exPairCfg with transfer := "best", numIndivid := 4, numGenerations := 2 }, { tape := exDraws 600 (exSeed 1) }, _, ?_, rfl, ?_,
    Prod.ext ?_ rfl, ?_⟩
  · exact (exPair_task rfl rfl rfl rfl rfl (.inl rfl)).uniform
  · exact ⟨⟨⟨2, exPair_task rfl rfl rfl rfl rfl (.inl rfl)⟩, by simp, .inl rfl⟩, exPair_matching, .inl rfl, fun _ => by decide +kernel⟩
  · decide +kernel
  · unfold AsGood
    decide +kernel

end BaumEva
