import Verif.Props.ExpectedTours
import Verif.Props.HandSure
/-!
# C126: programs assembled by hand that search over permutations

`CollectorGA` and the loop of advanced mode with `OrderCatPopulation`, tournaments, ordered crossover and any of the four mutations that
rearrange genes.
-/
namespace BaumEva
open Spec

/-- The programs meant: all values `a, …, b` are arranged; a generation has more children than a tournament has entrants; mutation of a
child is not certain; the draws are numbers below `B`. -/
structure TourSearch (a b : Int) (mop : MutOp) (size : Int) (c : Cfg) (s : St ℚ) (B : Nat) : Prop where
  three : a + 2 ≤ b
  fits : Composed (.combinatory a b (b - a + 1)) c .order mop s
  exact : c.arith = .exact
  seed : s.seed = none
  two : 2 ≤ size
  lt : size < c.numIndivid
  kids : size < (c.children : Int)
  uncertain : (SingleFacade.combinatory a b (b - a + 1)).Uncertain c.mutationLvl
  room : max c.numIndivid c.children < B
  thousand : 1000 ≤ B
  long : b - a + 1 ≤ (B : Int)

/-- The chance of a step on the way to a tour. -/
def stepOdds (mop : MutOp) (size : Int) (c : Cfg) (B : Nat) : ℚ := (1 / (B : ℚ)) ^ (c.children * (2 * size.toNat + 3 + mutDraws mop))

section
variable {a b : Int} {mop : MutOp} {size : Int} {c : Cfg} {ov goal : Option ℚ} {s : St ℚ} {B : Nat}

theorem TourSearch.pos (h : TourSearch a b mop size c s B) : 0 < B := by have := h.thousand; omega

theorem TourSearch.odds_pos (h : TourSearch a b mop size c s B) : 0 < stepOdds mop size c B := by
  have : (0 : ℚ) < B := by exact_mod_cast h.pos
  unfold stepOdds
  positivity

theorem TourSearch.odds_le (h : TourSearch a b mop size c s B) : stepOdds mop size c B ≤ 1 := by
  have : (1 : ℚ) ≤ B := by exact_mod_cast h.pos
  exact pow_le_one₀ (by positivity) (by rw [div_le_one (by linarith)]; exact this)

theorem TourSearch.rearranging (h : TourSearch a b mop size c s B) : Rearranging mop := h.fits.operators.2

theorem TourSearch.tours (h : TourSearch a b mop size c s B) {t v : List Nat} {p : Fit ℚ × Transfer} {s0 : St ℚ}
    (hst : handInit c (SingleFacade.combinatory a b (b - a + 1)).spec mop ov (some c.stop) { s with tape := t } = (.ok p, { s0 with tape := v })) :
    Tours p.1 size mop p.2 (allValues a b) s0 B ∧ numPairs s0.ga 1 = c.children := by
  set f : SingleFacade := .combinatory a b (b - a + 1) with hf
  have ha := h.fits
  have hm := h.rearranging
  have h3 : 3 ≤ (allValues a b).length := by rw [allValues_length]; have := h.three; omega
  have hPeq : IsTrack a b (b - a + 1) = Arr (allValues a b) := funext fun g => propext (track_arr (by have := h.three; omega) g)
  have hT := handInit_tame c f.spec mop ov (some c.stop)
  have hn0 : s0.seed = none := (hT.ext { s with tape := t } _ _ [] h.seed hst).2
  obtain ⟨⟨sb, a1⟩, a4, a6, a7, _, _⟩ := handInit_ok hst
  have hcore : SafeCore p.1 .order mop p.2 (f.Geno s0.ga.attrs) { s0 with tape := v } :=
    assembled_core (ov := ov) (sa := { s with tape := t }) ⟨ha.genes, ha.operators, ha.input, ha.room, ha.two, ha.level, ha.transfer,
      ha.objective, ha.arith⟩ a1 a4 a6 a7
  obtain ⟨hlen, hnum', _⟩ := a7.cells
  obtain ⟨q1, hcr⟩ := a7.created
  obtain ⟨_, hd, _⟩ := createPopulation_ok hcr
  have hnum : s0.ga.attrs.numIndivid = c.numIndivid := hd.num
  have hprep : ∀ gray gens, s0.ga.attrs.spec = .binary gray gens → Prepared s0.ga.attrs gray gens := by
    intro gray gens e
    exact hd.prep gray gens (hd.spec_eq.symm.trans e)
  have hspec : s0.ga.attrs.spec = f.spec := hd.spec_eq
  have hpairs : numPairs s0.ga 1 = c.children := numPairs_children hnum a7.percent a7.arith
  have hex : s0.ga.attrs.arith = .exact := a7.arith.trans h.exact
  have hset : SafeSetup p.1 (.tournament size) .order mop p.2 (Arr (allValues a b)) s0 := by
    have h1 : SafeSetup p.1 (.tournament size) .order mop p.2 (f.Geno s0.ga.attrs) { s0 with tape := v } :=
      ⟨hcore, fun s' e1 e2 e3 e4 => tournamentExec_safe h.two (by
        have e1 : s'.ga.attrs.numIndivid = s0.ga.attrs.numIndivid := e1
        rw [e1, hnum]; exact h.lt) e2 e3 e4⟩
    have h1 := h1.withTape s0.tape
    have h2 : f.Geno s0.ga.attrs = Arr (allValues a b) := hPeq
    rw [h2] at h1
    exact h1
  refine ⟨⟨hm, hset, hn0, hlen.trans hnum'.symm, h.two, by rw [hnum]; exact h.lt, by rw [hpairs]; exact h.kids, h3, allValues_nodup a b, hex, ?_,
    by rw [hnum, hpairs]; exact h.room, h.thousand, by rw [allValues_length]; have := h.long; omega⟩, hpairs⟩
  obtain ⟨l, l1, l2⟩ := a6
  have hb : mop ≠ .binString := by rcases hm with rfl | rfl | rfl | rfl <;> decide
  have l1' : checkMutation f.mutOp c.mutationLvl = .ok l := by
    rcases hm with rfl | rfl | rfl | rfl <;> exact l1
  have hlv : f.Level c.mutationLvl := by
    rcases ha.level with h | ⟨h1, h2⟩
    · exact .inl h
    · exact .inr ⟨fun gens e => by simp [hf] at e, h2⟩
  rw [h.exact, MutLvl.stored_exact] at l2
  obtain ⟨q, w0, w1, w2, _⟩ := f.low_start ha.genes hlv h.uncertain l1' hspec hprep hex
  have hlow : LowNext s0.ga.attrs.arith mop (s0.ga.attrs.idxBits.getLastD 0) s0.mutLvl := by
    refine ⟨q, w0, w1, fun _ => ?_, fun e => absurd e hb⟩
    have l2 : s0.mutLvl = l := l2
    rw [l2]
    exact w2 (show MutOp.movement ≠ .binString by decide)
  intro w k sk hk
  obtain ⟨q, r0, r1, r2, _⟩ := (hset.withTape w).toSafeCore.low_after (sel := .tournament size) hlow hk
  exact ⟨q, r0, r1, r2 hb⟩

end

/-- The chance that a program returns after more than `m * (D + 1)` generations, and a given tour is not among the individuals of the first
`m * (D + 1) + 1`. -/
theorem byHand_tours {a b : Int} (hab : a + 2 ≤ b) : ∃ D : Nat, ∀ {mop : MutOp} {size : Int} {c : Cfg} {ov : Option ℚ} {s : St ℚ} {B : Nat} {prog : M ℚ Unit},
    TourSearch a b mop size c s B →
    ByHand c (SingleFacade.combinatory a b (b - a + 1)).spec (.tournament size) .order mop ov (some c.stop) prog →
    ∀ {x : List Val}, IsTrack a b (b - a + 1) x → ∀ m L : Nat,
    chance B L (fun t => ∃ s', prog { s with tape := t } = (.ok (), s') ∧ m * (D + 1) + 1 ≤ s'.ga.idxGeneration ∧
      ∀ l ∈ (generationsOf s').take (m * (D + 1) + 1), ∀ y ∈ l, y.genotype ≠ some x) ≤ (1 - stepOdds mop size c B ^ (D + 1)) ^ m := by
  have h3 : 3 ≤ (allValues a b).length := by rw [allValues_length]; omega
  obtain ⟨D, hD⟩ := walk_bound h3 (allValues_nodup a b)
  refine ⟨D, fun {mop size c ov s B prog} hS hprog {x} hx m L => ?_⟩
  have hB := hS.pos
  set f : SingleFacade := .combinatory a b (b - a + 1) with hf
  have hxA : Arr (allValues a b) x := (track_arr (by omega) x).mp hx
  set F : ℚ := (1 - stepOdds mop size c B ^ (D + 1)) ^ m with hF
  have hFpos : 0 ≤ F := by
    refine pow_nonneg ?_ m
    have := pow_le_one₀ (n := D + 1) hS.odds_pos.le hS.odds_le
    linarith
  set n := m * (D + 1) + 1 with hn
  have hT := handInit_tame c f.spec mop ov (some c.stop)
  have hexp := outcome_experiment hT.trim (s := s) hS.seed
  have htF : ∀ p : Fit ℚ × Transfer, Tame (baseFitnessExec p.1 >>= fun _ => gaUpdate : M ℚ Unit) := fun p =>
    (Tame.baseFitness p.1).bind fun _ => Tame.gaUpdate
  let next : (Fit ℚ × Transfer) × St ℚ → List Nat → Prop := fun b w =>
    ∃ c' v, EndsIn (baseFitnessExec b.1.1 >>= fun _ => gaUpdate : M ℚ Unit) b.2 w c' v ∧
      Bad (singleOps b.1.1 (.tournament size) .order mop b.1.2) x (m * (D + 1)) { c'.2 with tape := v }
  have hbind : chance B L (fun t => ∃ b v, EndsIn (handInit c f.spec mop ov (some c.stop)) s t b v ∧ next b v) ≤
      F * chance B L (fun t => ∃ b v, EndsIn (handInit c f.spec mop ov (some c.stop)) s t b v) := by
    refine chance_bind hB hexp ?_
    rintro t ⟨p, s0⟩ v ⟨e0, e1⟩ L
    simp only at e0 e1
    obtain ⟨htours, hpairs⟩ := hS.tours e1
    have hexp2 := outcome_experiment (htF p).trim (s := s0) htours.seed
    have hb2 := chance_bind hB (L := L) (c := F) (G := EndsIn (baseFitnessExec p.1 >>= fun _ => gaUpdate : M ℚ Unit) s0)
      (ψ := fun (c' : Unit × St ℚ) v => Bad (singleOps p.1 (.tournament size) .order mop p.2) x (m * (D + 1)) { c'.2 with tape := v }) hexp2 (by
        rintro w ⟨u, a⟩ v' ⟨c0, c1⟩ L
        simp only at c0 c1
        obtain ⟨pre, _, kp⟩ := (htF p).trim { s0 with tape := w } _ _ htours.seed c1
        have hreach : Arrived p.1 size mop p.2 s0 a := by
          refine ⟨1, pre, fun z => ?_⟩
          obtain ⟨_, z1, z2, z3⟩ := bind_ok.mp (kp z)
          exact After.first z2 z3
        have := htours.miss (fun q hq => hD q x hq hxA) m a hreach L
        unfold Tours.odd at this
        rw [hpairs] at this
        exact this)
    refine hb2.trans ?_
    have := chance_le_one (p := fun t => ∃ b v, EndsIn (baseFitnessExec p.1 >>= fun _ => gaUpdate : M ℚ Unit) s0 t b v) (L := L) hB
    nlinarith
  refine le_trans (chance_mono ?_) (hbind.trans ?_)
  · rintro t ⟨s', h, hidxn, hno⟩
    obtain ⟨p, s0, k, hst, hr⟩ := hprog.run h
    have hk := hr.after
    have hops := singleOps_run p.1 (.tournament size) .order mop p.2
    have hidx : s'.ga.idxGeneration = k := hr.idx
    have hfresh := hr.started.fresh
    obtain ⟨sn, hsn⟩ : ∃ sn, After (singleOps p.1 (.tournament size) .order mop p.2) s0 n sn := by
      obtain ⟨sn, e, _⟩ := hk.earlier hops hfresh (n - 1) (by omega)
      exact ⟨sn, by rwa [Nat.sub_add_cancel (by omega)] at e⟩
    have key : ∀ i si, After (singleOps p.1 (.tournament size) .order mop p.2) s0 i si → i ≤ n → ¬ Holds x si := by
      rintro i si hi hle ⟨r, hr, hrg⟩
      have hip := hi.pos
      have hmem : si.ga.population.map si.heap ∈ (generationsOf s').take n := by
        obtain ⟨si', e1, e2⟩ := hk.earlier hops hfresh (i - 1) (by omega)
        rw [Nat.sub_add_cancel hip] at e1
        rw [hi.unique e1] at e2
        refine List.mem_iff_getElem?.mpr ⟨i - 1, ?_⟩
        rw [List.getElem?_take_of_lt (by omega)]
        exact e2
      exact hno _ hmem (si.heap r) (List.mem_map_of_mem hr) hrg
    obtain ⟨fa, hfa⟩ := hk.one
    obtain ⟨b1, hb1⟩ : ∃ b1, (baseFitnessExec p.1 >>= fun _ => gaUpdate : M ℚ Unit) s0 = (.ok b1, fa) := by
      cases hfa with
      | first e1 e2 =>
        refine ⟨(), ?_⟩
        have e1 : baseFitnessExec p.1 s0 = _ := e1
        rw [bind_of_ok e1]
        exact e2
      | next e1 _ => exact absurd e1.pos (by omega)
    refine ⟨_, _, EndsIn.of_run hst, _, _, EndsIn.of_run (s := { s0 with tape := [] }) hb1, key 1 _ hfa (by omega), ?_⟩
    obtain ⟨a, ha1, ha2⟩ := hsn.avoids key 0 trivial
    rw [hfa.unique ha1] at ha2
    exact ha2.fewer (by omega)
  · have := chance_le_one (p := fun t => ∃ b v, EndsIn (handInit c f.spec mop ov (some c.stop)) s t b v) (L := L) hB
    nlinarith

theorem byHand_tours_missed {a b : Int} (hab : a + 2 ≤ b) : ∃ D : Nat, ∀ {mop : MutOp} {size : Int} {c : Cfg} {ov : Option ℚ} {s : St ℚ} {B : Nat} {prog : M ℚ Unit},
    TourSearch a b mop size c s B →
    ByHand c (SingleFacade.combinatory a b (b - a + 1)).spec (.tournament size) .order mop ov (some c.stop) prog →
    ∀ {x : List Val}, IsTrack a b (b - a + 1) x → ∀ m L : Nat,
    chance B L (fun t => ∃ s', prog { s with tape := t } = (.ok (), s') ∧ m * (D + 1) + 1 ≤ s'.ga.idxGeneration ∧ x ∉ evaluated s s') ≤
      (1 - stepOdds mop size c B ^ (D + 1)) ^ m := by
  obtain ⟨D, hD⟩ := byHand_tours hab
  refine ⟨D, fun {mop size c ov s B prog} hS hprog {x} hx m L => le_trans (chance_mono ?_) (hD hS hprog hx m L)⟩
  rintro t ⟨s', h, hn, hno⟩
  obtain ⟨p, s0, k, hst, hr⟩ := hprog.run h
  obtain ⟨_, _, _, m2⟩ := hr.budget
  refine ⟨s', h, hn, fun l hl y hy e => hno ?_⟩
  obtain ⟨z, z1, z2⟩ := m2 l (List.mem_of_mem_take hl) y hy
  have e : argument (SingleFacade.combinatory a b (b - a + 1)).spec.hasPhenotype y = some x := e
  rw [e] at z2
  injection z2 with z2
  exact z2 ▸ z1

/-- C126: the chance that `CollectorGA.optimize` returns after more than `m * (D + 1)` generations without having evaluated a given tour;
`D` depends on the values only. -/
theorem C126_missed {a b : Int} (hab : a + 2 ≤ b) : ∃ D : Nat, ∀ {mop : MutOp} {size : Int} {c : Cfg} {ov : Option ℚ} {s : St ℚ} {B : Nat},
    TourSearch a b mop size c s B → ∀ {x : List Val}, IsTrack a b (b - a + 1) x → ∀ m L : Nat,
    chance B L (fun t => ∃ s', collectorGA c (.orderCat a b (b - a + 1)) (.tournament size) .order mop ov { s with tape := t } = (.ok (), s') ∧
      m * (D + 1) + 1 ≤ s'.ga.idxGeneration ∧ x ∉ evaluated s s') ≤ (1 - stepOdds mop size c B ^ (D + 1)) ^ m := by
  obtain ⟨D, hD⟩ := byHand_tours_missed hab
  exact ⟨D, fun {_ _ _ _ _ _} hS {_} hx m L => hD hS collectorGA_byHand hx m L⟩

/-- C126: the same for the loop the README recommends for advanced mode. -/
theorem C126_advanced_missed {a b : Int} (hab : a + 2 ≤ b) : ∃ D : Nat, ∀ {mop : MutOp} {size : Int} {c : Cfg} {ov goal : Option ℚ} {s : St ℚ} {B : Nat} {e : Int},
    TourSearch a b mop size c s B → c.earlyStop = some e → ∀ {x : List Val}, IsTrack a b (b - a + 1) x → ∀ m L : Nat,
    chance B L (fun t => ∃ s', advancedGA c (.orderCat a b (b - a + 1)) (.tournament size) .order mop ov goal { s with tape := t } = (.ok (), s') ∧
      m * (D + 1) + 1 ≤ s'.ga.idxGeneration ∧ x ∉ evaluated s s') ≤ (1 - stepOdds mop size c B ^ (D + 1)) ^ m := by
  obtain ⟨D, hD⟩ := byHand_tours_missed hab
  exact ⟨D, fun {_ _ _ _ _ _ _ _} hS he {_} hx m L => hD hS (advancedGA_byHand he) hx m L⟩

/-- C126: enough generations find a tour with any probability below one.  How many are enough depends on the values, the mutation, the number
of children, the size of a tournament and that probability only. -/
theorem C126_found {a b : Int} (hab : a + 2 ≤ b) (mop : MutOp) {B : Nat} (hB : 0 < B) (n : Nat) (size : Int) {ε : ℚ} (hε : 0 < ε) :
    ∃ N, ∀ {c : Cfg} {ov : Option ℚ} {s : St ℚ} {x : List Val}, TourSearch a b mop size c s B → c.children = n →
      IsTrack a b (b - a + 1) x → c.earlyStop = none → N ≤ c.numGenerations → ∃ K, ∀ L, K ≤ L → 1 - ε ≤
        chance B L (fun t => ∃ s', collectorGA c (.orderCat a b (b - a + 1)) (.tournament size) .order mop ov { s with tape := t } = (.ok (), s') ∧
          x ∈ evaluated s s') := by
  obtain ⟨D, hD⟩ := C126_missed hab
  have hB1 : (1 : ℚ) ≤ B := by exact_mod_cast hB
  have hpos : 0 < ((1 / (B : ℚ)) ^ (n * (2 * size.toNat + 3 + mutDraws mop))) ^ (D + 1) := by positivity
  obtain ⟨m, hm⟩ := exists_pow_lt_of_lt_one (show 0 < ε / 2 by linarith)
    (show 1 - ((1 / (B : ℚ)) ^ (n * (2 * size.toNat + 3 + mutDraws mop))) ^ (D + 1) < 1 by linarith)
  refine ⟨m * (D + 1) + 1, fun {c ov s x} hS hn hx hes hlen => ?_⟩
  subst hn
  have hl : Lively c ov B (.tournament size) := ⟨hS.two, hS.lt, by have := hS.kids; omega, hS.room⟩
  obtain ⟨K, hK⟩ := C112_returns hS.fits hl hS.seed (show 0 < ε / 2 by linarith)
  refine ⟨K, fun L hL => ?_⟩
  have := (chance_and hB
    (q := fun t => ∃ s', collectorGA c (.orderCat a b (b - a + 1)) (.tournament size) .order mop ov { s with tape := t } = (.ok (), s') ∧
      x ∈ evaluated s s')
    (hK L hL) (le_trans (chance_mono ?_) ((hD (ov := ov) hS hx m L).trans hm.le))).trans (chance_mono fun t h => h.2)
  · linarith
  · rintro t ⟨⟨s', h⟩, hno⟩
    refine ⟨s', h, ?_, fun hmem => hno ⟨s', h, hmem⟩⟩
    rw [(C110_stops h).2.2.1 hes]
    omega

/-- C126: and, in an unconstrained task, return a solution at least as good as the tour. -/
theorem C126_optimum {a b : Int} (hab : a + 2 ≤ b) (mop : MutOp) {B : Nat} (hB : 0 < B) (n : Nat) (size : Int) {ε : ℚ} (hε : 0 < ε) :
    ∃ N, ∀ {c : Cfg} {ov : Option ℚ} {s : St ℚ} {x : List Val} {o : ℚ}, TourSearch a b mop size c s B → ¬ Constrained c s.conds →
      c.children = n → IsTrack a b (b - a + 1) x → c.objective x = .ok (.sc o) → c.earlyStop = none → N ≤ c.numGenerations →
      ∃ K, ∀ L, K ≤ L → 1 - ε ≤
        chance B L (fun t => ∃ s', collectorGA c (.orderCat a b (b - a + 1)) (.tournament size) .order mop ov { s with tape := t } = (.ok (), s') ∧
          ∃ r g y ob, s'.ga.best = some (.single r g) ∧ (s'.heap r).genotype = some y ∧ c.objective y = .ok (.sc ob) ∧
            cost ov ob ≤ cost ov o) := by
  obtain ⟨N, hN⟩ := C126_found hab mop hB n size hε
  refine ⟨N, fun {c ov s x o} hS hu hn hx ho hes hlen => ?_⟩
  obtain ⟨K, hK⟩ := hN (ov := ov) hS hn hx hes hlen
  refine ⟨K, fun L hL => (hK L hL).trans (chance_mono ?_)⟩
  rintro t ⟨s', h, hmem⟩
  refine ⟨s', h, ?_⟩
  obtain ⟨r, g, y, ob, b1, b2, _, b4, _, b6⟩ := C110_best_of_all (s := { s with tape := t }) hS.exact hu h
  obtain ⟨o', o1, o2⟩ := b6 x hmem
  rw [ho] at o1
  injection o1 with o1
  injection o1 with o1
  subst o1
  exact ⟨r, g, y, ob, b1, b2, b4, o2⟩

/-- C126: the expected number of generations before the first that contains a given tour has a bound that does not depend on the number of
generations, the objective or the size of the population. -/
theorem C126_expected {a b : Int} (hab : a + 2 ≤ b) : ∃ D : Nat, ∀ {mop : MutOp} {size : Int} {c : Cfg} {ov : Option ℚ} {s : St ℚ} {B : Nat},
    TourSearch a b mop size c s B → ∀ {x : List Val}, IsTrack a b (b - a + 1) x → ∀ L : Nat,
    mean B L (waits (collectorGA c (.orderCat a b (b - a + 1)) (.tournament size) .order mop ov) s fun l => ∃ y ∈ l, y.genotype = some x) ≤
      (D + 1) * ((B : ℚ) ^ (c.children * (2 * size.toNat + 3 + mutDraws mop))) ^ (D + 1) := by
  obtain ⟨D, hD⟩ := byHand_tours hab
  refine ⟨D, fun {mop size c ov s B} hS {x} hx L => ?_⟩
  have hprog : ByHand c (SingleFacade.combinatory a b (b - a + 1)).spec (.tournament size) .order mop ov (some c.stop)
    (collectorGA c (.orderCat a b (b - a + 1)) (.tournament size) .order mop ov) := collectorGA_byHand
  refine (mean_blocks (pow_pos hS.odds_pos (D + 1)) (pow_le_one₀ hS.odds_pos.le hS.odds_le) (Nat.succ_pos D) fun n => ?_).trans (le_of_eq ?_)
  · refine le_trans (chance_mono fun t ht => ?_) (hD hS hprog hx (n / (D + 1)) L)
    obtain ⟨s', h, hn, hno⟩ := waits_run (fun s' h => by
      obtain ⟨p, s0, k, hst, hr⟩ := hprog.run h
      have := (hr.after.inv (singleOps_run p.1 (.tournament size) .order mop p.2) hr.started.fresh).hist
      rw [this.idx]; exact this.snaps) ht
    have := Nat.div_mul_le_self n (D + 1)
    refine ⟨s', h, by omega, fun l hl y hy e => hno l ?_ ⟨y, hy, e⟩⟩
    exact (List.take_sublist_take_left (by omega)).subset hl
  · unfold stepOdds
    rw [one_div, inv_pow, inv_pow, div_inv_eq_mul]
    push_cast
    ring

/-! ## A concrete case -/

/-- The search of C123 with any of the four mutations. -/
theorem exWalk_search (n : Nat) {mop : MutOp} (hm : Rearranging mop) : TourSearch 0 2 mop 2 (exWalkCfg n) {} 1000 where
  three := by norm_num
  fits := ⟨(exTour_admissible n).genes, ⟨rfl, hm⟩, (exTour_admissible n).input, (exTour_admissible n).room, show 2 ≤ 4 by decide,
    .inl ⟨1 / 100, rfl, by norm_num, by norm_num⟩, .inl rfl, (exTour_admissible n).objective, (exTour_admissible n).arith⟩
  exact := rfl
  seed := rfl
  two := le_rfl
  lt := show (2 : Int) < 4 by decide
  kids := by
    rw [show (exWalkCfg n).children = 3 from show ({ exCfg with childrenPercent := 3 / 4 } : Cfg).children = 3 by decide +kernel]
    decide
  uncertain := exWalk_uncertain
  room := by
    rw [show (exWalkCfg n).children = 3 from show ({ exCfg with childrenPercent := 3 / 4 } : Cfg).children = 3 by decide +kernel]
    exact (by decide : max 4 3 < 1000)
  thousand := le_rfl
  long := by norm_num

/-- `CollectorGA` with shift mutation: one number bounds the expected wait for a tour, however long the run is. -/
example : ∃ W : ℚ, ∀ m L : Nat, mean 1000 L (waits (collectorGA (exWalkCfg m) (.orderCat 0 2 (2 - 0 + 1)) (.tournament 2) .order .shift none) {}
    fun l => ∃ y ∈ l, y.genotype = some [.num 1, .num 0, .num 2]) ≤ W := by
  obtain ⟨D, hD⟩ := C126_expected (a := 0) (b := 2) (by norm_num)
  refine ⟨(D + 1) * (((1000 : Nat) : ℚ) ^ (3 * (2 * (2 : Int).toNat + 3 + mutDraws .shift))) ^ (D + 1), fun m L => ?_⟩
  have := hD (ov := none) (exWalk_search m (mop := .shift) (by simp [Rearranging])) exTour_track L
  rw [show (exWalkCfg m).children = 3 from show ({ exCfg with childrenPercent := 3 / 4 } : Cfg).children = 3 by decide +kernel] at this
  exact this

set_option maxRecDepth 100000 in
/-- A run with inversion. -/
example : (collectorGA (exWalkCfg 4) (.orderCat 0 2 (2 - 0 + 1)) (.tournament 2) .order .inversion none { tape := exTape }).1 = .ok () := by decide +kernel

end BaumEva
