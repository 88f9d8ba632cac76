import Verif.Proofs.Safe
import Verif.Proofs.Run
import Verif.Spec.Mutation
/-!
# Components that raise nothing
-/
namespace BaumEva
open Spec
variable {σ : Type}

/-! ## crossover -/

/-- Genotypes the crossover can be applied to. -/
def CrossFits (op : CrossOp) (len : Nat) (p1 p2 : List Val) : Prop :=
  match op with
  | .onePoint => 2 ≤ len
  | .twoPoint => 3 ≤ len
  | .order => 3 ≤ len
  | .uniform => len ≤ p1.length ∧ len ≤ p2.length

theorem segmentPoints_safe {lo len : Nat} (h : lo + 2 ≤ len) (s : St σ) : Safe (segmentPoints lo len) s := by
  unfold segmentPoints
  refine Safe.bind (Safe.sample s (by omega) (by simp; omega)) ?_
  intro l s1 hl
  obtain ⟨_, _, _, h4, _⟩ := sample_ok hl
  match l, h4 with
  | [i, j], _ => exact Safe.pure _ _
  | [], h4 => simp at h4
  | [_], h4 => simp at h4
  | _ :: _ :: _ :: _, h4 => simp at h4; omega

theorem uniformLoop_safe {p1 p2 : List Val} : ∀ {n i : Nat} (s : St σ), i + n ≤ p1.length → i + n ≤ p2.length →
    Safe (uniformLoop p1 p2 i n) s := by
  intro n
  induction n with
  | zero => intro i s _ _; exact Safe.pure _ _
  | succ n ih =>
    intro i s h1 h2
    rw [uniformLoop]
    refine Safe.bind (Safe.randint (by omega) s) ?_
    intro c s1 _
    have : ∃ v, (if c = 1 then p1 else p2)[i]? = some v := by
      split
      · exact ⟨_, List.getElem?_eq_getElem (by omega)⟩
      · exact ⟨_, List.getElem?_eq_getElem (by omega)⟩
    obtain ⟨v, hv⟩ := this
    simp only [hv]
    exact Safe.bind (ih s1 (by omega) (by omega)) (fun _ _ _ => Safe.pure _ _)

theorem crossGeno_safe {op : CrossOp} {len : Nat} {p1 p2 : List Val} (h : CrossFits op len p1 p2) (s : St σ) :
    Safe (crossGeno op len p1 p2) s := by
  unfold CrossFits at h
  unfold crossGeno
  cases op with
  | onePoint => exact Safe.bind (Safe.randint (by simp only at h; omega) s) (fun _ _ _ => Safe.pure _ _)
  | twoPoint => exact Safe.bind (segmentPoints_safe (by simp only at h; omega) s) (fun _ _ _ => Safe.pure _ _)
  | order => exact Safe.bind (segmentPoints_safe (by simp only at h; omega) s) (fun _ _ _ => Safe.pure _ _)
  | uniform => exact Safe.bind (uniformLoop_safe s (by simpa using h.1) (by simpa using h.2)) (fun _ _ _ => Safe.pure _ _)

theorem getChild_safe {op : CrossOp} {len : Nat} {p1 p2 : List Val} (h : CrossFits op len p1 p2) (s : St σ) :
    Safe (getChild op len p1 p2) s := by
  unfold getChild
  refine Safe.bind (crossGeno_safe h s) (fun cs s1 _ => Safe.bind (Safe.randint (by omega) s1) (fun c s2 _ => ?_))
  exact Safe.of_ok (alloc_run _ _)

theorem crossPairs_safe {op : CrossOp} {len : Nat} : ∀ {n : Nat} {ps : List Nat} {s : St σ}, ps.length = 2 * n →
    (∀ r ∈ ps, r < s.next) → (∀ r ∈ ps, ∃ g, (s.heap r).genotype = some g) →
    (∀ a ∈ ps, ∀ b ∈ ps, ∀ p1 p2, (s.heap a).genotype = some p1 → (s.heap b).genotype = some p2 → CrossFits op len p1 p2) →
    Safe (crossPairs op len ps) s := by
  intro n
  induction n with
  | zero =>
    intro ps s hl _ _ _
    rw [List.length_eq_zero_iff.mp hl, crossPairs]
    exact Safe.pure _ _
  | succ n ih =>
    intro ps s hl hal hg hf
    match ps, hl with
    | [_], hl => simp at hl; omega
    | a :: b :: rest, hl =>
      simp at hl
      rw [crossPairs]
      obtain ⟨p1, e1⟩ := hg a (by simp)
      obtain ⟨p2, e2⟩ := hg b (by simp)
      refine Safe.bind_ok (genoOf_ok.mpr ⟨e1, rfl⟩) (Safe.bind_ok (genoOf_run e2) (Safe.bind (getChild_safe (hf a (by simp) b (by simp) _ _ e1 e2) s) ?_))
      intro c s1 hc
      refine Safe.bind_ok (modGa_run _ _) ?_
      unfold getChild at hc
      obtain ⟨cs, s2, c1, c2⟩ := bind_ok.mp hc
      obtain ⟨coin, s3, c3, c4⟩ := bind_ok.mp c2
      obtain ⟨rfl, rfl⟩ := alloc_ok.mp c4
      have hd : Drew s s3 := (crossGeno_drew c1).trans (randint_ok c3).2.2
      obtain ⟨t, rfl⟩ := hd
      have hsame : ∀ r ∈ rest, upd s.heap s.next ({ genotype := some (if coin = 1 then cs.1 else cs.2) } : Ind σ) r = s.heap r := by
        intro r hr
        exact upd_ne (by have := hal r (by simp [hr]); omega)
      refine ih (by omega) ?_ ?_ ?_
      · intro r hr
        have := hal r (by simp [hr])
        simp only; omega
      · intro r hr
        simp only
        rw [hsame r hr]
        exact hg r (by simp [hr])
      · intro x hx y hy q1 q2 h1 h2
        simp only at h1 h2
        rw [hsame x hx] at h1
        rw [hsame y hy] at h2
        exact hf x (by simp [hx]) y (by simp [hy]) _ _ h1 h2
    | [], hl => simp at hl

theorem crossExec_safe {op : CrossOp} {s : St σ} {r0 n : Nat} {g0 : List Val} (h0 : s.ga.population.head? = some r0)
    (hg0 : (s.heap r0).genotype = some g0) (hl : s.ga.parents.length = 2 * n) (hal : ∀ r ∈ s.ga.parents, r < s.next)
    (hg : ∀ r ∈ s.ga.parents, ∃ g, (s.heap r).genotype = some g)
    (hf : ∀ a ∈ s.ga.parents, ∀ b ∈ s.ga.parents, ∀ p1 p2, (s.heap a).genotype = some p1 → (s.heap b).genotype = some p2 →
      CrossFits op g0.length p1 p2) : Safe (crossExec op) s := by
  unfold crossExec
  refine Safe.bind_ok (getGa_run s) ?_
  cases hp : s.ga.population with
  | nil => rw [hp] at h0; simp at h0
  | cons x xs =>
    rw [hp] at h0
    simp at h0
    subst h0
    simp only
    refine Safe.bind_ok (genoOf_run hg0) ?_
    unfold newPopulation
    obtain ⟨s1, e1, ⟨t, rfl⟩⟩ := reseed_drew s
    refine Safe.bind_ok e1 (Safe.bind_ok (modGa_run _ _) ?_)
    exact crossPairs_safe hl hal hg hf

/-! ## mutation -/

/-- Pools whose genes can be mutated. -/
def MutablePool (p : CatGene) : Prop :=
  match p with
  | .values l => l.length ≤ 1 ∨ HasChoice p
  | .range _ _ step => step ≠ 0
  | .other => False

/-- Genotypes the mutation can be applied to. -/
def MutFits (op : MutOp) (spec : PopSpec) (g : List Val) : Prop :=
  match op with
  | .binString => True
  | .categorical => ∃ pools, spec = .cat pools ∧ g.length ≤ pools.length ∧ ∀ p ∈ pools, MutablePool p
  | .shift => 3 ≤ g.length
  | _ => 2 ≤ g.length

theorem determines_safe (q : ℚ) (s : St σ) : Safe (determinesMutation (.float q)) s := by
  unfold determinesMutation rndSamples
  exact Safe.bind (Safe.randint (by omega) s) (fun _ _ _ => Safe.pure _ _)

theorem mutateBits_safe (q : ℚ) : ∀ (g : List Val) (s : St σ), Safe (mutateBits (.float q) g) s := by
  intro g
  induction g with
  | nil => intro s; exact Safe.pure _ _
  | cons x xs ih =>
    intro s
    rw [mutateBits]
    exact Safe.bind (determines_safe _ s) (fun _ s1 _ => Safe.bind (ih s1) (fun _ _ _ => Safe.pure _ _))

theorem mutateCatGene_safe {p : CatGene} (hp : MutablePool p) (x : Val) (s : St σ) : Safe (mutateCatGene p x) s := by
  unfold mutateCatGene
  cases p with
  | values l =>
    simp only
    refine Safe.ite (fun hl => Safe.choice s ?_) (fun _ => Safe.pure _ _)
    rcases hp with h | ⟨u, v, hu, hv, hne⟩
    · omega
    · intro he
      rw [List.filter_eq_nil_iff] at he
      have a := he u hu
      have b := he v hv
      simp at a b
      exact hne (a.trans b.symm)
  | range lo hi step =>
    simp only
    refine Safe.ite (fun h0 => absurd h0 hp) (fun _ => Safe.ite (fun hl => Safe.choice s ?_) (fun _ => Safe.pure _ _))
    intro he
    rw [List.filter_eq_nil_iff] at he
    have hall : ∀ y ∈ ((pyRange lo (hi + 1) step).map fun (i : Int) => Val.num (i : ℚ)), y = x := by
      intro y hy
      have := he y hy
      simpa using this
    have hnd : ((pyRange lo (hi + 1) step).map fun (i : Int) => Val.num (i : ℚ)).Nodup := by
      refine List.Nodup.map num_inj ?_
      unfold pyRange
      refine List.Nodup.map ?_ List.nodup_range
      intro i j h
      simp only at h
      have hs : step ≠ 0 := hp
      have := mul_left_cancel₀ hs (by omega : step * (i : Int) = step * (j : Int))
      exact_mod_cast this
    generalize ((pyRange lo (hi + 1) step).map fun (i : Int) => Val.num (i : ℚ)) = l at hall hnd hl
    match l, hl with
    | [_], hl => simp at hl
    | a :: b :: _, _ =>
      have e1 := hall a (by simp)
      have e2 := hall b (by simp)
      rw [e1, e2] at hnd
      simp at hnd
    | [], hl => simp at hl
  | other => exact hp.elim

theorem mutateCat_safe (q : ℚ) : ∀ (g : List Val) (pools : List CatGene) (s : St σ), g.length ≤ pools.length →
    (∀ p ∈ pools, MutablePool p) → Safe (mutateCat (.float q) pools g) s := by
  intro g
  induction g with
  | nil => intro pools s _ _; rw [mutateCat]; exact Safe.pure _ _
  | cons x xs ih =>
    intro pools s hl hp
    rw [mutateCat]
    cases pools with
    | nil => simp at hl
    | cons p ps =>
      refine Safe.bind ?_ (fun _ s1 _ => Safe.bind (ih _ s1 (by simpa using hl) (fun p hp' => hp p (by simp at hp'; simp [hp']))) (fun _ _ _ => Safe.pure _ _))
      unfold mutateCatAt
      refine Safe.bind (determines_safe _ s) (fun m s1 _ => Safe.ite (fun _ => ?_) (fun _ => Safe.pure _ _))
      exact mutateCatGene_safe (hp p (by simp)) x s1

theorem pair_safe {l : List Nat} (h : 2 ≤ l.length) (f : Nat → Nat → List Val) (s : St σ) :
    Safe (do
      let l ← sample l 2
      match l with
      | [i, j] => pure (f i j)
      | _ => throwE .indexError) s := by
  refine Safe.bind (Safe.sample s (by omega) (by exact_mod_cast h)) ?_
  intro l s1 hl
  obtain ⟨_, _, _, h4, _⟩ := sample_ok hl
  match l, h4 with
  | [i, j], _ => exact Safe.pure _ _
  | [], h4 => simp at h4
  | [_], h4 => simp at h4
  | _ :: _ :: _ :: _, h4 => simp at h4; omega

theorem mutateComb_safe {op : MutOp} {spec : PopSpec} {g : List Val} (h : MutFits op spec g) (s : St σ) : Safe (mutateComb op g) s := by
  unfold MutFits at h
  unfold mutateComb
  cases op with
  | inversion => exact Safe.bind (segmentPoints_safe (by simp only at h; omega) s) (fun _ _ _ => Safe.pure _ _)
  | movement => exact pair_safe (by simpa using h) _ s
  | swap => exact pair_safe (by simpa using h) _ s
  | shift =>
    simp only at h ⊢
    refine Safe.bind (Safe.randint (by omega) s) ?_
    intro chain s1 h1
    obtain ⟨c1, c2, _⟩ := randint_ok h1
    refine Safe.bind (Safe.randint (by omega) s1) ?_
    intro b s2 h2
    refine Safe.bind (Safe.choice s2 ?_) (fun _ _ _ => Safe.pure _ _)
    intro he
    rw [List.filter_eq_nil_iff] at he
    have a0 := he 0 (List.mem_range.mpr (by omega))
    have a1 := he 1 (List.mem_range.mpr (by omega))
    simp at a0 a1
    omega
  | binString => exact Safe.pure _ _
  | categorical => exact Safe.pure _ _

theorem mutateChild_safe {op : MutOp} {r : Nat} {s : St σ} {q : ℚ} {g : List Val} (hq : s.mutLvl = .float q)
    (hg : (s.heap r).genotype = some g) (hf : MutFits op s.ga.attrs.spec g) : Safe (mutateChild op r) s := by
  unfold mutateChild
  refine Safe.bind_ok (getS_run s) ?_
  have comb : Safe (do
      let m ← determinesMutation (s.mutLvl.effective s.ga.attrs.arith)
      if m then do
        let g ← genoOf r
        let g' ← mutateComb op g
        modInd r fun ind => { ind with genotype := some g' }
      else pure ()) s := by
    rw [hq]
    refine Safe.bind (determines_safe _ s) (fun m s1 h1 => Safe.ite (fun _ => ?_) (fun _ => Safe.pure _ _))
    obtain ⟨_, _, t, _, _, rfl, _⟩ := determines_ok.mp h1
    refine Safe.bind_ok (genoOf_run (s := { s with tape := t }) hg) (Safe.bind (mutateComb_safe hf _) (fun _ _ _ => Safe.of_ok (modInd_run _ _ _)))
  cases op with
  | binString =>
    simp only
    rw [hq]
    exact Safe.bind_ok (genoOf_run hg) (Safe.bind (mutateBits_safe _ g s) (fun _ _ _ => Safe.of_ok (modInd_run _ _ _)))
  | categorical =>
    simp only
    obtain ⟨pools, e, hl, hp⟩ := hf
    refine Safe.bind_ok (genoOf_run hg) ?_
    rw [hq]
    simp only [e]
    exact Safe.bind (mutateCat_safe _ g pools s hl hp) (fun _ _ _ => Safe.of_ok (modInd_run _ _ _))
  | inversion => exact comb
  | movement => exact comb
  | shift => exact comb
  | swap => exact comb

theorem mutateLoop_safe {op : MutOp} : ∀ {l : List Nat} {s : St σ} {q : ℚ}, l.Nodup → s.mutLvl = .float q →
    (∀ r ∈ l, ∃ g, (s.heap r).genotype = some g ∧ MutFits op s.ga.attrs.spec g) → Safe (forEach l (mutateChild op)) s := by
  intro l
  induction l with
  | nil => intro s q _ _ _; exact Safe.pure _ _
  | cons x xs ih =>
    intro s q hn hq hg
    rw [forEach]
    obtain ⟨g, e, hf⟩ := hg x (by simp)
    refine Safe.bind (mutateChild_safe hq e hf) ?_
    intro u s1 h1
    obtain ⟨⟨t, v, rfl⟩, _⟩ := mutateChild_ok h1
    refine ih (List.nodup_cons.mp hn).2 hq ?_
    intro r hr
    have : r ≠ x := by rintro rfl; exact (List.nodup_cons.mp hn).1 hr
    obtain ⟨g, e, hf⟩ := hg r (by simp [hr])
    exact ⟨g, by simp only; rw [upd_ne this]; exact e, hf⟩

/-- The mutation object is usable with this population. -/
def MutReady (op : MutOp) (at_ : Attrs) (lvl : MutLvl) : Prop :=
  ((∃ q, lvl = .float q) ∨ (op = .binString ∧ ∃ x, lvl = .str x)) ∧
  (op = .binString → (∃ gray gens, at_.spec = .binary gray gens) ∧ at_.idxBits.getLastD 0 ≠ 0)

theorem MutReady.stored {op : MutOp} {at_ : Attrs} {lvl : MutLvl} (ar : Arith) (h : MutReady op at_ lvl) :
    MutReady op at_ (lvl.stored ar) := by
  refine ⟨?_, h.2⟩
  rcases h.1 with ⟨q, rfl⟩ | ⟨e, x, rfl⟩
  · exact .inl ⟨_, rfl⟩
  · exact .inr ⟨e, x, rfl⟩

theorem MutReady.update {op : MutOp} {at_ : Attrs} {lvl l : MutLvl} (h : MutReady op at_ lvl) (hop : op = .binString)
    (hu : updateMutLvlR at_.arith.rnd lvl (at_.idxBits.getLastD 0) = .ok l) : ∃ q, l = .float q := by
  have h0 := (h.2 hop).2
  unfold updateMutLvlR at hu
  rcases h.1 with ⟨q, rfl⟩ | ⟨_, x, rfl⟩
  · simp only [Except.ok.injEq] at hu; exact ⟨q, hu.symm⟩
  · simp only at hu
    rw [if_neg h0] at hu
    split at hu
    · simp only [Except.ok.injEq] at hu; exact ⟨_, hu.symm⟩
    · split at hu <;> simp only [Except.ok.injEq] at hu <;> exact ⟨_, hu.symm⟩

theorem mutExec_safe {op : MutOp} {s : St σ} (hn : s.ga.children.Nodup) (hr : MutReady op s.ga.attrs s.mutLvl)
    (hg : ∀ r ∈ s.ga.children, ∃ g, (s.heap r).genotype = some g ∧ MutFits op s.ga.attrs.spec g) : Safe (mutExec op) s := by
  unfold mutExec
  refine Safe.bind_ok (getS_run s) ?_
  have other : op ≠ .binString → Safe (forEach s.ga.children (mutateChild op)) s := by
    intro ho
    rcases hr.1 with ⟨q, hq⟩ | ⟨e, _⟩
    · exact mutateLoop_safe hn hq hg
    · exact absurd e ho
  cases op with
  | binString =>
    obtain ⟨⟨gray, gens, e⟩, h0⟩ := hr.2 rfl
    simp only [e]
    obtain ⟨l, hl⟩ : ∃ l, updateMutLvlR s.ga.attrs.arith.rnd s.mutLvl (s.ga.attrs.idxBits.getLastD 0) = .ok l := by
      unfold updateMutLvlR
      rcases hr.1 with ⟨q, hq⟩ | ⟨_, x, hx⟩
      · rw [hq]; exact ⟨_, rfl⟩
      · rw [hx]
        simp only
        rw [if_neg h0]
        split
        · exact ⟨_, rfl⟩
        · split <;> exact ⟨_, rfl⟩
    obtain ⟨q, rfl⟩ := hr.update rfl hl
    refine Safe.bind (Safe.liftE_ok hl s) ?_
    intro l s1 h1
    rw [hl] at h1
    obtain ⟨e1, rfl⟩ := liftE_ok.mp h1
    injection e1 with e1
    subst e1
    refine Safe.bind_ok (modifyS_run _ _) ?_
    exact mutateLoop_safe (q := q) hn rfl hg
  | inversion => exact other (by simp)
  | movement => exact other (by simp)
  | shift => exact other (by simp)
  | swap => exact other (by simp)
  | categorical => exact other (by simp)

/-! ## new generation -/

theorem isDuplicate_safe {rs : List Nat} {s : St σ} (h : ∀ r ∈ rs, ∃ g, (s.heap r).genotype = some g) : Safe (isDuplicate rs) s := by
  unfold isDuplicate
  refine Safe.bind (Safe.mapEach (fun x => x = s) ?_ ?_ rfl) (fun _ _ _ => Safe.pure _ _)
  · rintro r hr _ rfl
    obtain ⟨g, e⟩ := h r hr
    exact Safe.of_ok (genoOf_run e)
  · rintro r hr _ s' y rfl hy
    exact (genoOf_ok.mp hy).2

theorem withGeno_safe {rs : List Nat} {s : St σ} (h : ∀ r ∈ rs, ∃ g, (s.heap r).genotype = some g) : Safe (withGeno rs) s := by
  unfold withGeno
  refine Safe.mapEach (fun x => x = s) ?_ ?_ rfl
  · rintro r hr _ rfl
    obtain ⟨g, e⟩ := h r hr
    exact Safe.bind_ok (genoOf_run e) (Safe.pure _ _)
  · rintro r hr _ s' y rfl hy
    obtain ⟨g, s1, h1, h2⟩ := bind_ok.mp hy
    obtain ⟨_, rfl⟩ := genoOf_ok.mp h1
    exact (pure_ok.mp h2).2

theorem addBest_safe {k : Nat} {s : St σ} (hg : ∀ r ∈ s.ga.population, ∃ g, (s.heap r).genotype = some g)
    (hk : k ≤ s.ga.population.length) (hp : 2 ≤ s.ga.population.length) : Safe (addBest k) s := by
  unfold addBest
  have hge : ∀ r ∈ lastN s.ga.population (k + 1), ∃ g, (s.heap r).genotype = some g :=
    fun r hr => hg r ((lastN_sublist _ _).subset hr)
  refine Safe.bind_ok (getGa_run s) (Safe.bind (isDuplicate_safe hge) ?_)
  intro dup s1 h1
  obtain ⟨rfl, _, hd⟩ := isDuplicate_ok h1
  refine Safe.ite (fun hdup => ?_) (fun _ => Safe.pure _ _)
  have hnn := hd.mp hdup
  refine Safe.bind (withGeno_safe hge) ?_
  intro keyed s2 h3
  obtain ⟨rfl, k1, k2⟩ := withGeno_ok h3
  have hn : ¬ (keyed.reverse.map Prod.fst).Nodup := by
    rw [List.map_reverse, List.nodup_reverse]
    intro hn
    apply hnn
    rw [← k2, show (keyed.map fun p => some p.1) = (keyed.map Prod.fst).map some by simp]
    exact hn.map (Option.some_injective _)
  have hlen := delDupRev_length _ hn
  have hkl : (((delDupRev keyed.reverse).reverse).map Prod.snd).length + 1 = min (k + 1) s2.ga.population.length := by
    rw [← lastN_length, ← k1, List.length_map, List.length_reverse, hlen, List.length_reverse, List.length_map]
  exact Safe.bind (Safe.sample _ (by omega) (by omega)) (fun _ _ _ => Safe.pure _ _)

theorem resample_safe {pool : List Nat} {k : Nat} (hk : k ≤ pool.length) : ∀ {n : Nat} {e : List Nat} {s : St σ},
    (∀ r ∈ pool, ∃ g, (s.heap r).genotype = some g) → (∀ r ∈ e, r ∈ pool) → Safe (resample pool k n e) s := by
  intro n
  induction n with
  | zero => intro e s _ _; rw [resample]; exact Safe.pure _ _
  | succ n ih =>
    intro e s hg he
    rw [resample]
    refine Safe.bind (isDuplicate_safe fun r hr => hg r (he r hr)) ?_
    intro dup s1 h1
    obtain ⟨rfl, _⟩ := isDuplicate_ok h1
    refine Safe.ite (fun _ => Safe.bind (Safe.sample _ (by omega) (by exact_mod_cast hk)) ?_) (fun _ => Safe.pure _ _)
    intro e' s2 h2
    obtain ⟨_, _, _, _, ⟨t, rfl⟩⟩ := sample_ok h2
    exact ih hg (sample_mem h2)

theorem addRandom_safe {k : Nat} {s : St σ} (hg : ∀ r ∈ s.ga.population, ∃ g, (s.heap r).genotype = some g)
    (hk : k < s.ga.population.length) : Safe (addRandom k) s := by
  unfold addRandom
  have hl : k ≤ s.ga.population.dropLast.length := by rw [List.length_dropLast]; omega
  refine Safe.bind_ok (getGa_run s) (Safe.bind (Safe.sample _ (by omega) (by exact_mod_cast hl)) ?_)
  intro e s1 h1
  obtain ⟨_, _, _, _, ⟨t, rfl⟩⟩ := sample_ok h1
  refine Safe.bind (resample_safe hl (fun r hr => hg r (List.dropLast_subset _ hr)) (sample_mem h1)) ?_
  intro e2 s2 _
  have hne : s.ga.population ≠ [] := by intro h; rw [h] at hk; simp at hk
  simp only [List.getLast?_eq_some_getLast hne]
  exact Safe.pure _ _

theorem newGenExec_safe [LinearOrder σ] {tr : Transfer} {s : St σ} (hs : s.ga.attrs.isSorted = true)
    (hg : ∀ r ∈ s.ga.population, ∃ g, (s.heap r).genotype = some g) (hp : 2 ≤ s.ga.population.length)
    (hn : s.ga.attrs.numIndivid ≤ s.ga.population.length)
    (hr : tr = .random → s.ga.attrs.numIndivid < s.ga.population.length + s.ga.children.length) : Safe (newGenExec tr) s := by
  unfold newGenExec ensureSorted
  have he : (getGa >>= fun ga => if ga.attrs.isSorted then pure () else sortByScore) s = (.ok (), s) := by
    rw [bind_of_ok (getGa_run s), ite_run, if_pos hs]; rfl
  refine Safe.bind_ok he (Safe.bind_ok (getGa_run s) (Safe.ite (fun hk => ?_) (fun _ => ?_)))
  · refine Safe.bind ?_ (fun es s1 _ => ?_)
    · cases tr with
      | best => exact addBest_safe hg (by omega) hp
      | random =>
        have := hr rfl
        exact addRandom_safe hg (by omega)
    · exact Safe.of_ok (modGa_run _ _)
  · have hne : s.ga.population ≠ [] := by intro h; rw [h] at hp; simp at hp
    simp only [List.getLast?_eq_some_getLast hne]
    exact Safe.of_ok (modGa_run _ _)

/-! ## update -/

theorem sortByScore_safe [LinearOrder σ] {s : St σ} (h : ∀ r ∈ s.ga.population, (s.heap r).score.isSome) : Safe sortByScore s := by
  unfold sortByScore
  refine Safe.bind_ok (getGa_run s) (Safe.bind (Safe.mapEach (fun x => x = s) ?_ ?_ rfl) (fun _ _ _ => Safe.of_ok (modGa_run _ _)))
  · rintro r hr _ rfl
    obtain ⟨v, hv⟩ := Option.isSome_iff_exists.mp (h r hr)
    exact Safe.bind_ok (scoreOf_run hv) (Safe.pure _ _)
  · rintro r hr _ s' y rfl hy
    obtain ⟨g, s1, h1, h2⟩ := bind_ok.mp hy
    obtain ⟨_, rfl⟩ := scoreOf_ok.mp h1
    exact (pure_ok.mp h2).2

theorem ensureSorted_safe [LinearOrder σ] {s : St σ} (h : ∀ r ∈ s.ga.population, (s.heap r).score.isSome) : Safe ensureSorted s := by
  unfold ensureSorted
  exact Safe.bind_ok (getGa_run s) (Safe.ite (fun _ => Safe.pure _ _) (fun _ => sortByScore_safe h))

theorem gaUpdate_safe [LinearOrder σ] {s : St σ} (hne : s.ga.population ≠ []) (h : ∀ r ∈ s.ga.population, (s.heap r).score.isSome)
    (hb : s.ga.best = none ∨ ∃ b g v, s.ga.best = some (.single b g) ∧ (s.heap b).score = some v) : Safe gaUpdate s := by
  unfold gaUpdate
  refine Safe.bind (ensureSorted_safe h) ?_
  intro u s1 h1
  obtain ⟨pop, rfl, hperm, _⟩ := ensureSorted_ok h1
  have hne' : pop ≠ [] := by rintro rfl; exact hne hperm.nil_eq.symm
  have hsc : ∀ r ∈ pop, (s.heap r).score.isSome := fun r hr => h r (hperm.subset hr)
  have hlen : 0 < pop.length := List.length_pos_iff.mpr hne'
  obtain ⟨b, eb⟩ := Option.isSome_iff_exists.mp (hsc _ (List.getLast_mem hne'))
  obtain ⟨m, em⟩ := Option.isSome_iff_exists.mp (hsc _ (List.getElem_mem (show pop.length / 2 < pop.length by omega)))
  obtain ⟨w, ew⟩ := Option.isSome_iff_exists.mp (hsc _ (List.head_mem hne'))
  refine Safe.bind ?_ ?_
  · unfold recordScores
    refine Safe.bind_ok (getGa_run _) ?_
    simp only [List.getLast?_eq_some_getLast hne', List.getElem?_eq_getElem (show pop.length / 2 < pop.length by omega),
      List.head?_eq_some_head hne']
    exact Safe.bind_ok (scoreOf_run eb) (Safe.bind_ok (scoreOf_run em) (Safe.bind_ok (scoreOf_run ew) (Safe.of_ok (modGa_run _ _))))
  · intro u s2 h2
    obtain ⟨rb, rm, rw', b', m', w', r1, r2, r3, r4, r5, r6, rfl⟩ := recordScores_ok h2
    refine Safe.bind_ok (getGa_run _) ?_
    simp only at r1
    simp only [r1]
    refine Safe.bind ?_ ?_
    · unfold decideBest
      refine Safe.bind_ok (getGa_run _) ?_
      rcases hb with hb | ⟨b, g, v, hb, hv⟩
      · simp only [hb]
        exact Safe.of_ok (replaceBest_run _ _)
      · simp only [hb]
        refine Safe.bind_ok (scoreOf_run (s := { s with ga := _ }) hv) (Safe.bind_ok (scoreOf_run (s := { s with ga := _ }) r4) (Safe.ite (fun _ => ?_) (fun _ => ?_)))
        · exact Safe.bind_ok (replaceBest_run _ _) (Safe.of_ok (modGa_run _ _))
        · exact Safe.of_ok (modGa_run _ _)
    · intro u s3 _
      refine Safe.bind_ok (modGa_run _ _) ?_
      unfold snapshot
      exact Safe.of_ok (modifyS_run _ _)

/-! ## fitness -/

/-- What `best_individ` can be for a given `best_solution`. -/
def BestKind (b : Option Best) (a : BestArg) : Prop :=
  match b with
  | none => a = .none
  | some (.single _ _) => ∃ f, a = .ind f
  | some (.pareto _ _) => a = .pareto

theorem bestArg_kind (s : St σ) : BestKind s.ga.best (bestArg s) := by
  unfold BestKind bestArg
  cases s.ga.best with
  | none => rfl
  | some b => cases b with
    | single r g => exact ⟨_, rfl⟩
    | pareto _ _ => rfl

/-- The argument `g` can be evaluated for an individual with rank `rk`. -/
def Evaluable (fit : Fit σ) (b : Option Best) (gen : Nat) (rk : Option Rank) (g : List Val) : Prop :=
  ∃ ret vals, (if fit.task.inputTruthy then fit.task.obj2 else fit.task.obj1) g = .ok ret ∧
    checkInput fit.task.multi fit.isCond fit.conditions ret = .ok vals ∧
    if fit.isCond then
      ∃ vs pr p, vals = some (.tup vs) ∧ popAll fit.idxOpt vs = .ok pr ∧ pr.2.length ≤ fit.conditions.length ∧
        fit.task.penalty = some p ∧ ∀ best, BestKind b best → ∃ pen, p.value fit.task.arith fit.conditions pr.2 gen best = .ok pen ∧
          ∀ a : Ind σ, a.rank = rk → a.objScore = some (if fit.task.multi then .tup pr.1 else .sc (pr.1.headD 0)) →
            ∃ sc, fit.task.score a pen = .ok sc
    else ∀ a : Ind σ, a.rank = rk → a.objScore = vals → ∃ sc, fit.task.score a 0 = .ok sc

theorem feasLoop_run {r : Nat} : ∀ {cs : List Cond} {vs : List ℚ} (s : St σ), vs.length ≤ cs.length →
    ∃ s', feasLoop r cs vs s = (.ok (), s') := by
  intro cs
  induction cs with
  | nil =>
    intro vs s h
    cases vs with
    | nil => exact ⟨s, rfl⟩
    | cons v vs => simp at h
  | cons c cs ih =>
    intro vs s h
    cases vs with
    | nil => exact ⟨s, rfl⟩
    | cons v vs =>
      rw [feasLoop, bind_of_ok (markFeas_run r c v s)]
      exact ih _ (by simpa using h)

theorem evalCond_run {fit : Fit σ} {r : Nat} {vs : List ℚ} {pr : List ℚ × List ℚ} {p : Penalty} {s : St σ} {Q : ℚ → Prop}
    (h4 : popAll fit.idxOpt vs = .ok pr) (h5 : pr.2.length ≤ fit.conditions.length) (h6 : fit.task.penalty = some p)
    (h7 : ∀ best, BestKind s.ga.best best → ∃ pen, p.value fit.task.arith fit.conditions pr.2 s.ga.idxGeneration best = .ok pen ∧ Q pen) :
    ∃ pen s', evalCond fit r vs s = (.ok pen, s') ∧ Q pen ∧ (s'.heap r).rank = (s.heap r).rank ∧
      (s'.heap r).objScore = some (if fit.task.multi then .tup pr.1 else .sc (pr.1.headD 0)) := by
  unfold evalCond
  rw [bind_of_ok (liftE_ok.mpr ⟨h4, rfl⟩), bind_of_ok (modInd_run _ _ _)]
  obtain ⟨s2, e2⟩ := feasLoop_run (r := r) (cs := fit.conditions) (vs := pr.2)
    ({ s with heap := upd s.heap r { s.heap r with objScore := some (if fit.task.multi = true then .tup pr.1 else .sc (pr.1.headD 0)) } } : St σ) h5
  rw [bind_of_ok e2, bind_of_ok (getS_run _), h6]
  obtain ⟨_, hs2⟩ := feasLoop_ok e2
  have hga : s2.ga = s.ga := by rw [hs2]
  obtain ⟨pen, e3, hq⟩ := h7 (bestArg s2) (by rw [← hga]; exact bestArg_kind _)
  refine ⟨pen, s2, ?_, hq, ?_, ?_⟩
  · simp only
    rw [hga, e3]
    rfl
  · rw [hs2]; simp [upd]
  · rw [hs2]; simp [upd]

theorem evalInd_safe {fit : Fit σ} {r : Nat} {s : St σ} (h : (s.heap r).score = none → ∃ g, (s.heap r).genotype = some g ∧
    Evaluable fit s.ga.best s.ga.idxGeneration (s.heap r).rank g) : Safe (evalInd fit r) s := by
  unfold evalInd
  refine Safe.bind_ok (getInd_run r s) ?_
  cases hsc : (s.heap r).score with
  | some v => exact Safe.pure _ _
  | none =>
    simp only
    obtain ⟨g, hg, ret, vals, h1, h2, h3⟩ := h hsc
    refine Safe.bind_ok (genoOf_ok.mpr ⟨hg, rfl⟩) ?_
    have hc : calcObj fit g s = (.ok vals, { s with calls := s.calls ++ [g] }) := by
      unfold calcObj
      rw [bind_of_ok (callObj_ok.mpr ⟨h1, rfl⟩), h2]
      rfl
    refine Safe.bind_ok hc ?_
    unfold evalValues
    cases hic : fit.isCond with
    | false =>
      rw [hic] at h3
      simp only [Bool.false_eq_true, if_false] at h3 ⊢
      have e0 : ∀ s0 : St σ, (do modInd r fun ind => { ind with objScore := vals }
                                 Pure.pure (0 : ℚ) : M σ ℚ) s0 =
          (.ok 0, { s0 with heap := upd s0.heap r { s0.heap r with objScore := vals } }) := by
        intro s0
        rw [bind_of_ok (modInd_run _ _ _)]
        rfl
      refine Safe.bind_ok (e0 _) (Safe.bind_ok (getInd_run _ _) ?_)
      obtain ⟨sc, e⟩ := h3 { s.heap r with objScore := vals } rfl rfl
      refine Safe.bind (Safe.liftE_ok (a := sc) ?_ _) (fun _ _ _ => Safe.of_ok (modInd_run _ _ _))
      simp only [upd_same]
      exact e
    | true =>
      rw [hic] at h3
      simp only [if_true] at h3 ⊢
      obtain ⟨vs, pr, p, rfl, h4, h5, h6, h7⟩ := h3
      obtain ⟨pen, s2, e2, hq, hr, ho⟩ := evalCond_run (r := r) (s := { s with calls := s.calls ++ [g] }) h4 h5 h6 h7
      refine Safe.bind_ok e2 (Safe.bind_ok (getInd_run _ _) ?_)
      obtain ⟨sc, e6⟩ := hq (s2.heap r) hr ho
      exact Safe.bind (Safe.liftE_ok e6 _) (fun _ _ _ => Safe.of_ok (modInd_run _ _ _))

theorem evalLoop_safe {fit : Fit σ} : ∀ {l : List Nat} {s : St σ}, (∀ r ∈ l, (s.heap r).score = none → ∃ g, (s.heap r).genotype = some g ∧
    Evaluable fit s.ga.best s.ga.idxGeneration (s.heap r).rank g) → Safe (forEach l (evalInd fit)) s := by
  intro l
  induction l with
  | nil => intro s _; exact Safe.pure _ _
  | cons x xs ih =>
    intro s h
    rw [forEach]
    refine Safe.bind (evalInd_safe (h x (by simp))) ?_
    intro u s1 h1
    rcases evalInd_ok h1 with ⟨_, rfl⟩ | ⟨_, g, b, ba, _, _, he, rfl⟩
    · exact ih fun r hr => h r (by simp [hr])
    · refine ih ?_
      intro r hr hs
      simp only at hs ⊢
      by_cases hx : r = x
      · subst hx
        rw [upd_same] at hs
        have := he.scored.1
        rw [hs] at this
        simp at this
      · rw [upd_ne hx] at hs ⊢
        exact h r (by simp [hr]) hs

theorem getPhenotype_safe {s : St σ} (h : ∀ r ∈ s.ga.population, (s.heap r).phenotype.isSome ∨
    ∃ g p, (s.heap r).genotype = some g ∧ decodeIndivid s.ga.attrs g = .ok p) : Safe getPhenotype s := by
  unfold getPhenotype
  refine Safe.bind_ok (getGa_run s) ?_
  refine Safe.forEach (fun s' => ∀ r ∈ s.ga.population, (s'.heap r).phenotype.isSome ∨
    ∃ g p, (s'.heap r).genotype = some g ∧ decodeIndivid s.ga.attrs g = .ok p) ?_ ?_ h
  · intro r hr s1 hI
    refine Safe.bind_ok (getInd_run r s1) ?_
    cases hp : (s1.heap r).phenotype with
    | some p => exact Safe.pure _ _
    | none =>
      rcases hI r hr with h | ⟨g, p, e1, e2⟩
      · rw [hp] at h; simp at h
      · exact Safe.bind_ok (genoOf_ok.mpr ⟨e1, rfl⟩) (Safe.bind (Safe.liftE_ok e2 _) (fun _ _ _ => Safe.of_ok (modInd_run _ _ _)))
  · intro r hr s1 s2 hI h
    rw [bind_of_ok (getInd_run r s1)] at h
    cases hp : (s1.heap r).phenotype with
    | some p =>
      simp only [hp] at h
      obtain ⟨_, rfl⟩ := pure_ok.mp h
      exact hI
    | none =>
      simp only [hp] at h
      obtain ⟨g, s3, h3, h4⟩ := bind_ok.mp h
      obtain ⟨_, rfl⟩ := genoOf_ok.mp h3
      obtain ⟨p, s4, h5, h6⟩ := bind_ok.mp h4
      obtain ⟨_, rfl⟩ := liftE_ok.mp h5
      rw [modInd_ok] at h6
      subst h6
      intro x hx
      by_cases hxr : x = r
      · left; simp [hxr, upd]
      · simp only [upd_ne hxr]
        exact hI x hx

theorem baseFitness_safe {fit : Fit σ} {s : St σ} (hnd : (unscored s.heap s.ga.population).Nodup)
    (hdec : s.ga.attrs.isPhenotype = true → ∀ r ∈ s.ga.population, (s.heap r).phenotype.isSome ∨
      ∃ g p, (s.heap r).genotype = some g ∧ decodeIndivid s.ga.attrs g = .ok p)
    (hev : ∀ r ∈ unscored s.heap s.ga.population, ∀ m, Decoded s.ga (s.heap r) m → ∃ g, seen s.ga m = some g ∧
      Evaluable fit s.ga.best s.ga.idxGeneration (s.heap r).rank g) : Safe (baseFitnessExec fit) s := by
  unfold baseFitnessExec
  refine Safe.bind_ok (getGa_run s) (Safe.ite (fun hp => ?_) (fun hp => ?_))
  · refine Safe.bind (getPhenotype_safe (hdec hp)) ?_
    intro u s1 h1
    obtain ⟨hb, hph, _⟩ := getPhenotype_ok h1
    obtain ⟨s2, e2, hs2, hh2⟩ := swapPop_run s1
    refine Safe.bind_ok e2 (Safe.bind (evalLoop_safe ?_) (fun _ s3 _ => ?_))
    · intro r hr hs
      have hga2 : s2.ga = s.ga := by rw [hs2]; exact hb.ga
      have hga1 : s1.ga = s.ga := hb.ga
      have hsc : (s.heap r).score = none := by
        rw [hh2, (swap_iter_fields _ _).1] at hs
        rw [(hph r hr).keeps] at hs
        exact hs
      have hun := mem_unscored.mpr ⟨hr, hsc⟩
      have hone : s1.ga.population.count r = 1 := by
        rw [hga1]
        have h1 := List.nodup_iff_count_le_one.mp hnd r
        unfold unscored at h1
        rw [List.count_filter (by simp [hsc])] at h1
        have := List.count_pos_iff.mpr hr
        omega
      obtain ⟨g, hg, hE⟩ := hev r hun (s1.heap r) (by unfold Decoded; rw [if_pos hp]; exact hph r hr)
      unfold seen at hg
      rw [if_pos hp] at hg
      refine ⟨g, ?_, ?_⟩
      · rw [hh2, hone]; exact hg
      · rw [hga2, hh2, (swap_iter_fields _ _).2.2.1, (hph r hr).keeps]; exact hE
    · obtain ⟨s4, e4, _⟩ := swapPop_run s3
      exact Safe.of_ok e4
  · refine evalLoop_safe ?_
    intro r hr hs
    obtain ⟨g, hg, hE⟩ := hev r (mem_unscored.mpr ⟨hr, hs⟩) (s.heap r) (by unfold Decoded; rw [if_neg hp])
    unfold seen at hg
    rw [if_neg hp] at hg
    exact ⟨g, hg, hE⟩

/-! ## filling a population -/

theorem forall₂_right {α β : Type} {R : α → β → Prop} {l : List α} {l' : List β} (h : List.Forall₂ R l l') {b : β}
    (hb : b ∈ l') : ∃ a ∈ l, R a b := by
  induction h with
  | nil => simp at hb
  | cons hx _ ih =>
    rcases List.mem_cons.mp hb with rfl | hm
    · exact ⟨_, List.mem_cons_self, hx⟩
    · obtain ⟨a, ha, hr⟩ := ih hm
      exact ⟨a, List.mem_cons_of_mem _ ha, hr⟩

theorem fill_safe {input : Option (List (List Val))} {s : St σ} (hprep : Safe prepare s)
    (hok : ∀ at_ : Attrs, at_.spec = s.ga.attrs.spec → at_.arith = s.ga.attrs.arith → (∀ gray gens, at_.spec = .binary gray gens → Prepared at_ gray gens) →
      (∀ x ∈ input.getD [], ∃ g, adopt at_ x = .ok g) ∧ ∀ s' : St σ, Safe (generate at_) s') 
    (hph : s.ga.attrs.isPhenotype = true → ∃ gray gens, s.ga.attrs.spec = .binary gray gens)
    (hemp : s.ga.population = []) : Safe (fill input) s := by
  unfold fill
  refine Safe.bind hprep ?_
  intro u s1 h1
  have har := prepare_arith h1
  obtain ⟨at_, rfl, a1, a2, a3, a4, a5⟩ := prepare_ok h1
  obtain ⟨hin, hgen⟩ := hok at_ a1 har a5
  refine Safe.bind_ok (getGa_run _) ?_
  simp only
  refine Safe.bind ?_ ?_
  · refine Safe.forEach (fun _ => True) ?_ ?_ trivial
    · intro x hx s2 _
      obtain ⟨g, e⟩ := hin x hx
      exact Safe.bind (Safe.liftE_ok e s2) (fun _ _ _ => Safe.of_ok (a := ()) (s' := _) rfl)
    · intros; trivial
  · intro u s2 h2
    obtain ⟨gs1, ap1, f1⟩ := appendLoop (P := fun x g => adopt at_ x = .ok g) (by
      intro x s s' g h
      obtain ⟨e, rfl⟩ := liftE_ok.mp h
      exact ⟨Drew.refl _, e⟩) h2
    refine Safe.bind ?_ ?_
    · refine Safe.forEach (fun _ => True) ?_ ?_ trivial
      · intro x hx s2 _
        exact Safe.bind (hgen s2) (fun _ _ _ => Safe.of_ok (a := ()) (s' := _) rfl)
      · intros; trivial
    · intro u s3 h3
      obtain ⟨gs2, ap2, f2⟩ := appendLoop (P := fun _ g => GenShape at_ g) (fun x s s' g h => generate_ok h) h3
      have ap := ap1.trans ap2
      have hreset : ∀ s4 : St σ, Safe resetIdx s4 := by
        intro s4
        obtain ⟨s5, e5, _⟩ := resetIdx_run s4
        exact Safe.of_ok e5
      refine Safe.ite (fun hp => Safe.bind ?_ (fun _ s4 _ => hreset s4)) (fun _ => Safe.bind_ok (pure_run _ _) (hreset _))
      rw [a3] at hp
      obtain ⟨gray, gens, hsp⟩ := hph hp
      have hP := a5 gray gens (a1.trans hsp)
      refine getPhenotype_safe ?_
      intro r hr
      right
      rw [ap.pop] at hr
      simp only [hemp, List.nil_append, List.mem_range'_1] at hr
      obtain ⟨i, rfl⟩ : ∃ i, r = s.next + i := ⟨r - s.next, by omega⟩
      have hi : i < (gs1 ++ gs2).length := by omega
      have hg := List.getElem?_eq_getElem hi
      have hcell := ap.new i _ hg
      simp only at hcell
      have hshape : IsBits (gs1 ++ gs2)[i] ∧ ((gs1 ++ gs2)[i]).length = totalBits at_.params := by
        rcases List.mem_append.mp (List.getElem_mem hi) with hm | hm
        · obtain ⟨x, _, hx⟩ := forall₂_right f1 hm
          exact adopt_shape hP hx
        · obtain ⟨x, _, hx⟩ := forall₂_right f2 hm
          unfold GenShape at hx
          rw [hP.spec] at hx
          exact hx
      refine ⟨_, pointsR at_.arith.rnd gray (gs1 ++ gs2)[i] gens at_.params, by rw [hcell], ?_⟩
      rw [ap.pop]
      exact hP.decodeR hshape.1 hshape.2.ge

end BaumEva
