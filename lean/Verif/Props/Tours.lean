import Verif.Proofs.Clones
import Verif.Props.AlmostSure
/-!
# C123: a search over permutations finds every tour

`CombinatoryGA` on all arrangements of the numbers `a, …, b`: the positive counterpart of C121.
-/
namespace BaumEva
open Spec

/-- The numbers `a, …, b`. -/
def allValues (a b : Int) : List Val := (List.range (b - a + 1).toNat).map fun i : Nat => Val.num ((a + i : Int) : ℚ)

theorem allValues_length (a b : Int) : (allValues a b).length = (b - a + 1).toNat := by simp [allValues]

theorem allValues_nodup (a b : Int) : (allValues a b).Nodup := by
  refine List.Nodup.map ?_ List.nodup_range
  intro i j h
  injection h with h
  have h : ((a + i : Int) : ℚ) = ((a + j : Int) : ℚ) := h
  have := Int.cast_injective h
  omega

theorem mem_allValues {a b : Int} {v : Val} : v ∈ allValues a b ↔ ∃ i : Int, v = .num (i : ℚ) ∧ a ≤ i ∧ i ≤ b := by
  unfold allValues
  rw [List.mem_map]
  constructor
  · rintro ⟨i, hi, rfl⟩
    rw [List.mem_range] at hi
    exact ⟨a + i, rfl, by omega, by omega⟩
  · rintro ⟨i, rfl, h1, h2⟩
    refine ⟨(i - a).toNat, ?_, ?_⟩
    · rw [List.mem_range]; omega
    · congr 2
      omega

/-- The tours over all values are the arrangements of the values. -/
theorem track_arr {a b : Int} (h : a ≤ b) (g : List Val) : IsTrack a b (b - a + 1) g ↔ Arr (allValues a b) g := by
  constructor
  · rintro ⟨h1, h2, h3⟩
    have hs : ∀ x ∈ g, x ∈ allValues a b := fun x hx => mem_allValues.mpr (h3 x hx)
    exact (List.subperm_of_subset h2 hs).perm_of_length_le (by rw [allValues_length]; omega)
  · intro hp
    refine ⟨?_, hp.nodup_iff.mpr (allValues_nodup a b), fun x hx => mem_allValues.mp (hp.mem_iff.mp hx)⟩
    rw [List.Perm.length_eq hp, allValues_length]
    omega

/-- C123: the permutations of `a, …, b`.  The draws of a run of `CombinatoryGA` are independent uniform numbers below `B`, and a
generation has more children than a tournament has entrants.  There is a number `D` that depends on `a` and `b` only: the chance that the
run returns after more than `m * (D + 1)` generations, and a given tour is not among the individuals of the first
`m * (D + 1) + 1`, is at most `(1 - δ) ^ m`. -/
theorem C123_late {a b : Int} (hab : a + 2 ≤ b) : ∃ D : Nat, ∀ {c : Cfg} {ov : Option ℚ} {s : St ℚ},
    Admissible (.combinatory a b (b - a + 1)) c s.conds → c.arith = .exact → s.seed = none → c.tournamentSize < (c.children : Int) →
    (SingleFacade.combinatory a b (b - a + 1)).Uncertain c.mutationLvl →
    ∀ {B : Nat}, max c.numIndivid c.children < B → 1000 ≤ B → b - a + 1 ≤ (B : Int) →
    ∀ {x : List Val}, IsTrack a b (b - a + 1) x → ∀ m L : Nat,
    chance B L (fun t => ∃ s', combinatoryGA c a b (b - a + 1) ov { s with tape := t } = (.ok (), s') ∧
      m * (D + 1) + 1 ≤ s'.ga.idxGeneration ∧
      ∀ l ∈ (generationsOf s').take (m * (D + 1) + 1), ∀ y ∈ l, y.genotype ≠ some x) ≤
      (1 - ((1 / (B : ℚ)) ^ (c.children * (2 * c.tournamentSize.toNat + 6))) ^ (D + 1)) ^ m := by
  have h3 : 3 ≤ (allValues a b).length := by rw [allValues_length]; omega
  obtain ⟨D, hD⟩ := walk_bound h3 (allValues_nodup a b)
  refine ⟨D, fun {c ov s} ha hxa hseed hch hun {B} hroom hth hlong {x} hx m L => ?_⟩
  have hB : 0 < B := by omega
  set f : SingleFacade := .combinatory a b (b - a + 1) with hf
  have hPeq : IsTrack a b (b - a + 1) = Arr (allValues a b) := funext fun g => propext (track_arr (by omega) g)
  have hxA : Arr (allValues a b) x := hPeq ▸ hx
  set F : ℚ := (1 - ((1 / (B : ℚ)) ^ (c.children * (2 * c.tournamentSize.toNat + 6))) ^ (D + 1)) ^ m with hF
  have hB1 : (1 : ℚ) ≤ B := by exact_mod_cast hB
  have hFpos : 0 ≤ F := by
    refine pow_nonneg ?_ m
    have : ((1 / (B : ℚ)) ^ (c.children * (2 * c.tournamentSize.toNat + 6))) ^ (D + 1) ≤ 1 :=
      pow_le_one₀ (by positivity) (pow_le_one₀ (by positivity) (by rw [div_le_one (by linarith)]; exact hB1))
    linarith
  set n := m * (D + 1) + 1 with hn
  set task := hyperbolaTask c.obj1 c.obj2 c.inputTruthy c.penalty ov c.arith with htask
  have hT := startUp_tame c f.spec task f.mutOp
  have hexp := outcome_experiment hT.trim (s := s) hseed
  have htF : ∀ p : Fit ℚ × Transfer, Tame (baseFitnessExec p.1 >>= fun _ => gaUpdate : M ℚ Unit) := fun p =>
    (Tame.baseFitness p.1).bind fun _ => Tame.gaUpdate
  let next : (Fit ℚ × Transfer) × St ℚ → List Nat → Prop := fun b w =>
    ∃ c' v, EndsIn (baseFitnessExec b.1.1 >>= fun _ => gaUpdate : M ℚ Unit) b.2 w c' v ∧
      Bad (f.ops c b.1) x (m * (D + 1)) { c'.2 with tape := v }
  have hbind : chance B L (fun t => ∃ b v, EndsIn (startUp c f.spec task f.mutOp) s t b v ∧ next b v) ≤
      F * chance B L (fun t => ∃ b v, EndsIn (startUp c f.spec task f.mutOp) s t b v) := by
    refine chance_bind hB hexp ?_
    rintro t ⟨p, s0⟩ v ⟨e0, e1⟩ L
    simp only at e0 e1
    have hn0 : s0.seed = none := (hT.ext { s with tape := t } _ _ [] hseed e1).2
    obtain ⟨sa, sb, a1, a2, _, a4, a5, a6, a7⟩ := startUp_ok e1
    have hset : SafeSetup p.1 (.tournament c.tournamentSize) f.cross f.mutOp p.2 (f.Geno s0.ga.attrs) { s0 with tape := v } :=
      run_safe (ov := ov) (sa := sa) (sb := sb) (by rw [a2]; exact ha) a1 a4 a6 a7
    obtain ⟨hlen, hnum', _⟩ := a7.cells
    obtain ⟨q1, hcr⟩ := a7.created
    obtain ⟨_, hd, _⟩ := createPopulation_ok hcr
    have hnum : s0.ga.attrs.numIndivid = c.numIndivid := hd.num
    have hprep : ∀ gray gens, s0.ga.attrs.spec = .binary gray gens → Prepared s0.ga.attrs gray gens := by
      intro gray gens e
      exact hd.prep gray gens (hd.spec_eq.symm.trans e)
    have hspec : s0.ga.attrs.spec = f.spec := hd.spec_eq
    have hpairs : numPairs s0.ga 1 = c.children := numPairs_children hnum a7.percent a7.arith
    have hex : s0.ga.attrs.arith = .exact := a7.arith.trans hxa
    have hset' : SafeSetup p.1 (.tournament c.tournamentSize) .order .movement p.2 (Arr (allValues a b)) s0 := by
      have h1 := hset.withTape s0.tape
      have h2 : f.Geno s0.ga.attrs = Arr (allValues a b) := hPeq
      rw [h2] at h1
      exact h1
    have htours : Tours p.1 c.tournamentSize .movement p.2 (allValues a b) s0 B := by
      refine ⟨.inr (.inl rfl), hset', hn0, hlen.trans hnum'.symm, ha.size, by rw [hnum]; exact ha.size_lt, by rw [hpairs]; exact hch, h3, allValues_nodup a b, hex, ?_,
        by rw [hnum, hpairs]; exact hroom, hth, by rw [allValues_length]; omega⟩
      obtain ⟨l, l1, l2⟩ := a6
      rw [hxa, MutLvl.stored_exact] at l2
      have hlow := f.low_start ha.genes ha.level hun l1 hspec hprep hex
      rw [← l2, ← hex] at hlow
      intro w k sk hk
      obtain ⟨q, r0, r1, r2, _⟩ := (hset'.withTape w).toSafeCore.low_after (sel := .tournament c.tournamentSize) hlow hk
      exact ⟨q, r0, r1, r2 (show MutOp.movement ≠ .binString by decide)⟩
    -- the first generation
    have hexp2 := outcome_experiment (htF p).trim (s := s0) hn0
    have hb2 := chance_bind hB (L := L) (c := F) (G := EndsIn (baseFitnessExec p.1 >>= fun _ => gaUpdate : M ℚ Unit) s0)
      (ψ := fun (c' : Unit × St ℚ) v => Bad (f.ops c p) x (m * (D + 1)) { c'.2 with tape := v }) hexp2 (by
        rintro w ⟨u, a⟩ v' ⟨c0, c1⟩ L
        simp only at c0 c1
        obtain ⟨pre, _, kp⟩ := (htF p).trim { s0 with tape := w } _ _ hn0 c1
        have hreach : Arrived p.1 c.tournamentSize .movement p.2 s0 a := by
          refine ⟨1, pre, fun z => ?_⟩
          obtain ⟨_, z1, z2, z3⟩ := bind_ok.mp (kp z)
          exact After.first z2 z3
        have := htours.miss (fun q hq => hD q x hq hxA) m a hreach L
        unfold Tours.odd at this
        rw [hpairs] at this
        exact this)
    refine hb2.trans ?_
    have := chance_le_one (p := fun t => ∃ b v, EndsIn (baseFitnessExec p.1 >>= fun _ => gaUpdate : M ℚ Unit) s0 t b v) (L := L) hB
    nlinarith
  refine le_trans (chance_mono ?_) (hbind.trans ?_)
  · rintro t ⟨s', h, hidxn, hno⟩
    have h : f.optimize c ov { s with tape := t } = (.ok (), s') := h
    rw [f.optimize_eq] at h
    obtain ⟨p, s0, hst, h2⟩ := bind_ok.mp h
    obtain ⟨sa, sb, a1, a2, _, a4, a5, a6, a7⟩ := startUp_ok hst
    have hops := singleOps_run p.1 (.tournament c.tournamentSize) f.cross f.mutOp p.2
    obtain ⟨k, hk⟩ : ∃ k, After (f.ops c p) s0 k s' := by
      obtain ⟨_, sx, h3, h4⟩ := bind_ok.mp h2
      obtain ⟨_, k, _, _, _, hk, _⟩ := evolve_after h3
      obtain ⟨b, g, v, r, t1, _⟩ := (hk.inv hops a7.fresh).top
      have : sx = s' := by
        split at h4
        · unfold printBest at h4
          rw [bind_of_ok (getS_run sx), t1] at h4
          exact (pure_ok.mp h4).2.symm
        · exact (pure_ok.mp h4).2.symm
      exact ⟨k, this ▸ hk⟩
    have hidx : s'.ga.idxGeneration = k := (hk.inv hops a7.fresh).hist.idx
    obtain ⟨sn, hsn⟩ : ∃ sn, After (f.ops c p) s0 n sn := by
      obtain ⟨sn, e, _⟩ := hk.earlier hops a7.fresh (n - 1) (by omega)
      exact ⟨sn, by rwa [Nat.sub_add_cancel (by omega)] at e⟩
    have key : ∀ i si, After (f.ops c p) s0 i si → i ≤ n → ¬ Holds x si := by
      rintro i si hi hle ⟨r, hr, hrg⟩
      have hip := hi.pos
      have hmem : si.ga.population.map si.heap ∈ (generationsOf s').take n := by
        obtain ⟨si', e1, e2⟩ := hk.earlier hops a7.fresh (i - 1) (by omega)
        rw [Nat.sub_add_cancel hip] at e1
        rw [hi.unique e1] at e2
        refine List.mem_iff_getElem?.mpr ⟨i - 1, ?_⟩
        rw [List.getElem?_take_of_lt (by omega)]
        exact e2
      exact hno _ hmem (si.heap r) (List.mem_map_of_mem hr) hrg
    obtain ⟨fa, hfa⟩ := hk.one
    obtain ⟨b1, hb1⟩ : ∃ b1, (baseFitnessExec p.1 >>= fun _ => gaUpdate : M ℚ Unit) s0 = (.ok b1, fa) := by
      cases hfa with
      | first e1 e2 =>
        refine ⟨(), ?_⟩
        have e1 : baseFitnessExec p.1 s0 = _ := e1
        rw [bind_of_ok e1]
        exact e2
      | next e1 _ => exact absurd e1.pos (by omega)
    refine ⟨_, _, EndsIn.of_run hst, _, _, EndsIn.of_run (s := { s0 with tape := [] }) hb1, key 1 _ hfa (by omega), ?_⟩
    obtain ⟨a, ha1, ha2⟩ := hsn.avoids key 0 trivial
    rw [hfa.unique ha1] at ha2
    exact ha2.fewer (by omega)
  · have := chance_le_one (p := fun t => ∃ b v, EndsIn (startUp c f.spec task f.mutOp) s t b v) (L := L) hB
    nlinarith

/-- C123: the chance that the run returns after more than `m * (D + 1)` generations without having evaluated a given tour. -/
theorem C123_missed {a b : Int} (hab : a + 2 ≤ b) : ∃ D : Nat, ∀ {c : Cfg} {ov : Option ℚ} {s : St ℚ},
    Admissible (.combinatory a b (b - a + 1)) c s.conds → c.arith = .exact → s.seed = none → c.tournamentSize < (c.children : Int) →
    (SingleFacade.combinatory a b (b - a + 1)).Uncertain c.mutationLvl →
    ∀ {B : Nat}, max c.numIndivid c.children < B → 1000 ≤ B → b - a + 1 ≤ (B : Int) →
    ∀ {x : List Val}, IsTrack a b (b - a + 1) x → ∀ m L : Nat,
    chance B L (fun t => ∃ s', combinatoryGA c a b (b - a + 1) ov { s with tape := t } = (.ok (), s') ∧
      m * (D + 1) + 1 ≤ s'.ga.idxGeneration ∧ x ∉ evaluated s s') ≤
      (1 - ((1 / (B : ℚ)) ^ (c.children * (2 * c.tournamentSize.toNat + 6))) ^ (D + 1)) ^ m := by
  obtain ⟨D, hD⟩ := C123_late hab
  refine ⟨D, fun {c ov s} ha hxa hseed hch hun {B} hroom hth hlong {x} hx m L => ?_⟩
  refine le_trans (chance_mono ?_) (hD (ov := ov) ha hxa hseed hch hun hroom hth hlong hx m L)
  rintro t ⟨s', h, hn, hno⟩
  obtain ⟨_, _, _, m2⟩ := C71_budget (f := .combinatory a b (b - a + 1)) h
  refine ⟨s', h, hn, fun l hl y hy e => hno ?_⟩
  obtain ⟨z, z1, z2⟩ := m2 l (List.mem_of_mem_take hl) y hy
  have e : argument (SingleFacade.combinatory a b (b - a + 1)).spec.hasPhenotype y = some x := e
  rw [e] at z2
  injection z2 with z2
  exact z2 ▸ z1

/-- C123: the chance to miss a tour tends to 0 with the number of generations.  The number that is enough depends on the values, the
number of children, the size of a tournament and the chance one is ready to take. -/
theorem C123_vanishes {a b : Int} (hab : a + 2 ≤ b) {B : Nat} (hth : 1000 ≤ B) (hlong : b - a + 1 ≤ (B : Int)) (n : Nat) (size : Int) {ε : ℚ} (hε : 0 < ε) :
    ∃ N, ∀ {c : Cfg} {ov : Option ℚ} {s : St ℚ} {x : List Val}, Admissible (.combinatory a b (b - a + 1)) c s.conds → c.arith = .exact →
      s.seed = none → c.children = n → c.tournamentSize = size → size < (n : Int) →
      (SingleFacade.combinatory a b (b - a + 1)).Uncertain c.mutationLvl → max c.numIndivid n < B →
      IsTrack a b (b - a + 1) x → c.earlyStop = none → N ≤ c.numGenerations →
      ∀ L, chance B L (fun t => ∃ s', combinatoryGA c a b (b - a + 1) ov { s with tape := t } = (.ok (), s') ∧ x ∉ evaluated s s') ≤ ε := by
  obtain ⟨D, hD⟩ := C123_missed hab
  have hB1 : (1 : ℚ) ≤ B := by exact_mod_cast (by omega : 1 ≤ B)
  have hpos : 0 < ((1 / (B : ℚ)) ^ (n * (2 * size.toNat + 6))) ^ (D + 1) := by positivity
  have hle : ((1 / (B : ℚ)) ^ (n * (2 * size.toNat + 6))) ^ (D + 1) ≤ 1 :=
    pow_le_one₀ (by positivity) (pow_le_one₀ (by positivity) (by rw [div_le_one (by linarith)]; exact hB1))
  obtain ⟨m, hm⟩ := exists_pow_lt_of_lt_one hε (show 1 - ((1 / (B : ℚ)) ^ (n * (2 * size.toNat + 6))) ^ (D + 1) < 1 by linarith)
  refine ⟨m * (D + 1) + 1, fun {c ov s x} ha hxa hseed hn hsz hch hun hroom hx hes hlen L => ?_⟩
  subst hn hsz
  refine le_trans (chance_mono ?_) ((hD (ov := ov) ha hxa hseed hch hun hroom hth hlong hx m L).trans hm.le)
  rintro t ⟨s', h, hno⟩
  refine ⟨s', h, ?_, hno⟩
  rw [(C46_facades (f := .combinatory a b (b - a + 1)) h).2.2.1 hes]
  omega

/-- C123: enough generations find a tour with any probability below one. -/
theorem C123_found {a b : Int} (hab : a + 2 ≤ b) {B : Nat} (hth : 1000 ≤ B) (hlong : b - a + 1 ≤ (B : Int)) (n : Nat) (size : Int) {ε : ℚ} (hε : 0 < ε) :
    ∃ N, ∀ {c : Cfg} {ov : Option ℚ} {s : St ℚ} {x : List Val}, Admissible (.combinatory a b (b - a + 1)) c s.conds → c.arith = .exact →
      s.seed = none → c.children = n → c.tournamentSize = size → size < (n : Int) →
      (SingleFacade.combinatory a b (b - a + 1)).Uncertain c.mutationLvl → max c.numIndivid n < B →
      IsTrack a b (b - a + 1) x → c.earlyStop = none → N ≤ c.numGenerations →
      ∃ K, ∀ L, K ≤ L → 1 - ε ≤
        chance B L (fun t => ∃ s', combinatoryGA c a b (b - a + 1) ov { s with tape := t } = (.ok (), s') ∧ x ∈ evaluated s s') := by
  obtain ⟨N, hN⟩ := C123_vanishes hab hth hlong n size (show 0 < ε / 2 by linarith)
  refine ⟨N, fun {c ov s x} ha hxa hseed hn hsz hch hun hroom hx hes hlen => ?_⟩
  obtain ⟨K, hK⟩ := C108_returns (ov := ov) ha hseed (by subst hn hsz; omega) (B := B) (by subst hn; exact hroom) (show 0 < ε / 2 by linarith)
  refine ⟨K, fun L hL => ?_⟩
  have := (chance_and (show 0 < B by omega)
    (q := fun t => ∃ s', combinatoryGA c a b (b - a + 1) ov { s with tape := t } = (.ok (), s') ∧ x ∈ evaluated s s')
    (hK L hL) (le_trans (chance_mono ?_) (hN (ov := ov) ha hxa hseed hn hsz hch hun hroom hx hes hlen L))).trans
    (chance_mono fun t h => h.2)
  · linarith
  · rintro t ⟨⟨s', h⟩, hno⟩
    exact ⟨s', h, fun hm => hno ⟨s', h, hm⟩⟩

/-- C123: and, in an unconstrained task, return a solution at least as good as the tour.  With `x` an optimum: they return an optimum. -/
theorem C123_optimum {a b : Int} (hab : a + 2 ≤ b) {B : Nat} (hth : 1000 ≤ B) (hlong : b - a + 1 ≤ (B : Int)) (n : Nat) (size : Int) {ε : ℚ} (hε : 0 < ε) :
    ∃ N, ∀ {c : Cfg} {ov : Option ℚ} {s : St ℚ} {x : List Val} {o : ℚ}, Admissible (.combinatory a b (b - a + 1)) c s.conds → c.arith = .exact →
      ¬ Constrained c s.conds → s.seed = none → c.children = n → c.tournamentSize = size → size < (n : Int) →
      (SingleFacade.combinatory a b (b - a + 1)).Uncertain c.mutationLvl → max c.numIndivid n < B →
      IsTrack a b (b - a + 1) x → c.objective x = .ok (.sc o) → c.earlyStop = none → N ≤ c.numGenerations →
      ∃ K, ∀ L, K ≤ L → 1 - ε ≤
        chance B L (fun t => ∃ s', combinatoryGA c a b (b - a + 1) ov { s with tape := t } = (.ok (), s') ∧
          ∃ r g y ob, s'.ga.best = some (.single r g) ∧ (s'.heap r).genotype = some y ∧ c.objective y = .ok (.sc ob) ∧
            cost ov ob ≤ cost ov o) := by
  obtain ⟨N, hN⟩ := C123_found hab hth hlong n size hε
  refine ⟨N, fun {c ov s x o} ha hxa hu hseed hn hsz hch hun hroom hx ho hes hlen => ?_⟩
  obtain ⟨K, hK⟩ := hN (ov := ov) ha hxa hseed hn hsz hch hun hroom hx hes hlen
  refine ⟨K, fun L hL => (hK L hL).trans (chance_mono ?_)⟩
  rintro t ⟨s', h, hmem⟩
  refine ⟨s', h, ?_⟩
  obtain ⟨r, g, y, ob, b1, b2, _, b4, _, b6⟩ := C72_best_of_all (f := .combinatory a b (b - a + 1)) (s := { s with tape := t }) hxa hu h
  obtain ⟨o', o1, o2⟩ := b6 x hmem
  rw [ho] at o1
  injection o1 with o1
  injection o1 with o1
  subst o1
  exact ⟨r, g, y, ob, b1, b2, b4, o2⟩

/-! ## A concrete case -/

/-- The arrangements of 0, 1, 2; four individuals, of which three are replaced; the fewer places the 2 is from the end, the better. -/
def exWalkCfg (n : Nat) : Cfg :=
  { exCfg with numGenerations := n, earlyStop := none, childrenPercent := 3 / 4
               obj1 := fun g => .ok (.sc (if g[2]? = some (Val.num 2) then 0 else if g[1]? = some (Val.num 2) then 1 else 2)) }

theorem exTour_admissible (n : Nat) : Admissible (.combinatory 0 2 (2 - 0 + 1)) (exWalkCfg n) none where
  genes := ⟨by norm_num, by norm_num⟩
  input := by intro x hx; cases hx
  room := show 0 ≤ 4 by decide
  size := show (2 : Int) ≤ 2 by decide
  size_lt := show (2 : Int) < 4 by decide
  level := .inl ⟨1 / 100, rfl, by norm_num, by norm_num⟩
  transfer := .inl rfl
  objective := .inl ⟨.inl rfl, fun x _ => ⟨_, rfl⟩⟩
  arith := .inl rfl

theorem exTour_track : IsTrack 0 2 (2 - 0 + 1) [.num 1, .num 0, .num 2] := by
  refine ⟨rfl, by decide, fun v hv => ?_⟩
  simp only [List.mem_cons, List.not_mem_nil, or_false] at hv
  rcases hv with rfl | rfl | rfl
  · exact ⟨1, by norm_num, by norm_num, by norm_num⟩
  · exact ⟨0, by norm_num, by norm_num, by norm_num⟩
  · exact ⟨2, by norm_num, by norm_num, by norm_num⟩

/-- Nine runs in ten of so many generations return a tour that ends in 2. -/
example : ∃ m K, ∀ L, K ≤ L → 9 / 10 ≤ chance 1000 L (fun t => ∃ s', combinatoryGA (exWalkCfg m) 0 2 (2 - 0 + 1) none { tape := t } = (.ok (), s') ∧
    ∃ r g y ob, s'.ga.best = some (.single r g) ∧ (s'.heap r).genotype = some y ∧ (exWalkCfg m).objective y = .ok (.sc ob) ∧
      cost none ob ≤ cost none 0) := by
  obtain ⟨m, h⟩ := C123_optimum (a := 0) (b := 2) (by norm_num) (B := 1000) le_rfl (by norm_num) 3 2 (show (0 : ℚ) < 1 / 10 by norm_num)
  obtain ⟨K, hK⟩ := h (c := exWalkCfg m) (ov := none) (s := {}) (exTour_admissible m) rfl (by
      rintro ⟨h, _⟩; cases h) rfl (show ({ exCfg with childrenPercent := 3 / 4 } : Cfg).children = 3 by decide +kernel) rfl (by norm_num)
    ⟨fun q hq => by
      have hq : MutLvl.float (1 / 100) = .float q := hq
      injection hq with hq
      rw [← hq]; norm_num, fun h => by cases h⟩ (show max 4 3 < 1000 by decide) exTour_track (o := 0) rfl rfl le_rfl
  exact ⟨m, K, fun L hL => by have := hK L hL; norm_num at this ⊢; exact this⟩

set_option maxRecDepth 100000 in
/-- A run. -/
example : (combinatoryGA (exWalkCfg 4) 0 2 (2 - 0 + 1) none { tape := exTape }).1 = .ok () ∧
    [Val.num 0, .num 1, .num 2] ∈ evaluated {} (combinatoryGA (exWalkCfg 4) 0 2 (2 - 0 + 1) none { tape := exTape }).2 := by decide +kernel

end BaumEva
