import Verif.Proofs.Selection
import Verif.Proofs.Ranked
import Verif.Proofs.Mutation
import Verif.Proofs.Fitness
import Verif.Model.Run
/-!
# Selection, crossover and mutation together
-/
namespace BaumEva
variable {σ : Type}

/-- A selection: it changes what `Selected` says and fills the parents with `2 * numPairs m` copies. -/
def IsSelection (sel : M σ Unit) (m : Nat) : Prop :=
  ∀ (s s' : St σ) (u : Unit), (∀ r ∈ s.ga.population, r < s.next) → sel s = (.ok u, s') →
    Selected s s' ∧ s'.ga.parents.length = 2 * numPairs s.ga m

theorem rankedPre {s s' : St ℚ} {u : Unit}
    (h : assignRanked scoreKey (fun q (ind : Ind ℚ) => { ind with rank := some (.sc q) }) s = (.ok u, s')) :
    Relabelled s s' ∧ s'.ga.parents = s.ga.parents := by
  have := assignRanked_ranked (fun q x => by unfold SameCore; rfl) h
  exact ⟨this.1, by rw [this.2.1]⟩

theorem selExec_isSelection (sel : SelOp) : IsSelection (selExec sel) 1 := by
  intro s s' u hal h
  cases sel with
  | tournament size => exact tournamentExec_selected hal h
  | balanced =>
    refine balancedWith_selected ?_ hal h
    intro a b v hv
    obtain ⟨_, rfl⟩ := pure_ok.mp hv
    exact ⟨Relabelled.refl _, rfl⟩
  | ranked => exact balancedWith_selected (fun a b v hv => rankedPre hv) hal h

/-- The genotype of a child: a crossover of the genotypes of two members, possibly mutated. -/
def ChildOf (op : CrossOp) (mop : MutOp) (s : St σ) (lvl : MutLvl) (len : Nat) (g : List Val) : Prop :=
  ∃ a b p1 p2 g1, a ∈ s.ga.population ∧ b ∈ s.ga.population ∧ (s.heap a).genotype = some p1 ∧
    (s.heap b).genotype = some p2 ∧ CrossResult σ op len p1 p2 g1 ∧ (g = g1 ∨ MutGeno σ mop s.ga.attrs.spec lvl g1 g)

/-- Effect of selection, crossover and mutation. -/
structure Bore (op : CrossOp) (mop : MutOp) (s s' : St σ) : Prop where
  ga : s'.ga = { s.ga with parents := s'.ga.parents, children := s'.ga.children }
  range : ∃ n0, s.next ≤ n0 ∧ s'.ga.children = List.range' n0 s'.ga.children.length ∧
    n0 + s'.ga.children.length = s'.next
  core : ∀ r, r < s.next → SameCore (s.heap r) (s'.heap r)
  old : ∀ r, r < s.next → r ∉ s.ga.population → s'.heap r = s.heap r
  new : ∃ r0 g0, s.ga.population.head? = some r0 ∧ (s.heap r0).genotype = some g0 ∧
    ∀ r ∈ s'.ga.children, ∃ g, s'.heap r = { genotype := some g } ∧ ChildOf op mop s (s'.mutLvl.effective s.ga.attrs.arith) g0.length g
  size : s'.ga.parents.length = 2 * s'.ga.children.length
  seed : s'.seed = s.seed
  conds : s'.conds = s.conds
  calls : s'.calls = s.calls
  snaps : s'.snaps = s.snaps
  lvl : (mop ≠ .binString → s'.mutLvl = s.mutLvl) ∧
    (mop = .binString → updateMutLvlR s.ga.attrs.arith.rnd s.mutLvl (s.ga.attrs.idxBits.getLastD 0) = .ok s'.mutLvl)

/-- `selection.execute; crossover.execute; mutation.execute`. -/
def breed (sel : M σ Unit) (op : CrossOp) (mop : MutOp) : M σ Unit := do
  sel
  crossExec op
  mutExec mop

/-- A computation with the effect of a selection. -/
def Selects (sel : M σ Unit) : Prop :=
  ∀ (s s' : St σ) (u : Unit), (∀ r ∈ s.ga.population, r < s.next) → sel s = (.ok u, s') → Selected s s'

theorem IsSelection.selects {sel : M σ Unit} {m : Nat} (h : IsSelection sel m) : Selects sel :=
  fun s s' u hal hs => (h s s' u hal hs).1

theorem breed_bore {sel : M σ Unit} {op : CrossOp} {mop : MutOp} {s s' : St σ} {u : Unit}
    (hsel : Selects sel) (hal : ∀ r ∈ s.ga.population, r < s.next)
    (h : breed sel op mop s = (.ok u, s')) :
    Bore op mop s s' ∧ ∃ s1, sel s = (.ok (), s1) ∧ s1.next ≤ s'.next ∧ (∀ r, r < s1.next → s'.heap r = s1.heap r) ∧
      s'.ga.parents = s1.ga.parents := by
  unfold breed at h
  obtain ⟨_, s1, h1, k1⟩ := bind_ok.mp h
  obtain ⟨_, s2, h2, h3⟩ := bind_ok.mp k1
  have hS := hsel s s1 _ hal h1
  obtain ⟨r0, g0, e1, e2, sx, gs, hd, hga, hb, hlen, hch⟩ := crossExec_ok h2 (fun r hr => (hS.fresh r hr).2.1)
  have hpop1 : s1.ga.population = s.ga.population := by rw [hS.ga]
  have hxn : sx.next = s1.next := by obtain ⟨t, ht⟩ := hd; simp at ht; simp [ht]
  have hxh : sx.heap = s1.heap := by obtain ⟨t, ht⟩ := hd; simp at ht; simp [ht]
  have hxseed : sx.seed = s1.seed := by obtain ⟨t, ht⟩ := hd; simp at ht; simp [ht]
  have hxml : sx.mutLvl = s1.mutLvl := by obtain ⟨t, ht⟩ := hd; simp at ht; simp [ht]
  have hxc : sx.conds = s1.conds := by obtain ⟨t, ht⟩ := hd; simp at ht; simp [ht]
  have hxca : sx.calls = s1.calls := by obtain ⟨t, ht⟩ := hd; simp at ht; simp [ht]
  have hxs : sx.snaps = s1.snaps := by obtain ⟨t, ht⟩ := hd; simp at ht; simp [ht]
  have hchild : s2.ga.children = List.range' s1.next gs.length := by rw [hb.ga, hga, hxn]; simp
  have hnd : s2.ga.children.Nodup := by rw [hchild]; exact List.nodup_range'
  obtain ⟨⟨t, hp, es⟩, l1, l2, ho, hm⟩ := mutExec_ok h3 hnd
  have hga' : s'.ga = s2.ga := by rw [es]
  have hnext : s'.next = s2.next := by rw [es]
  have hmem : ∀ r, r < s1.next → r ∉ s2.ga.children := by
    intro r hr hc
    rw [hchild, List.mem_range'_1] at hc
    omega
  have hheap : ∀ r, r < s1.next → s'.heap r = s1.heap r := by
    intro r hr
    rw [ho r (hmem r hr), hb.old r (by omega), hxh]
  have hspec : s2.ga.attrs.spec = s.ga.attrs.spec := by rw [hb.ga, hga, hS.ga]
  have har : s2.ga.attrs.arith = s.ga.attrs.arith := by rw [hb.ga, hga, hS.ga]
  have hidx : s2.ga.attrs.idxBits = s.ga.attrs.idxBits := by rw [hb.ga, hga, hS.ga]
  have hml2 : s2.mutLvl = s.mutLvl := by rw [hb.mutLvl, hxml, hS.mutLvl]
  have hpar2 : s2.ga.parents = s1.ga.parents := by rw [hb.ga, hga]
  have h0lt : r0 < s.next := by
    rw [hpop1] at e1
    exact hal r0 (List.mem_of_mem_head? e1)
  refine ⟨⟨?_, ⟨s1.next, hS.next, ?_, ?_⟩, ?_, ?_, ⟨r0, g0, ?_, ?_, ?_⟩, ?_, ?_, ?_, ?_, ?_, ?_⟩, s1, h1, ?_, hheap, by rw [hga', hpar2]⟩
  · rw [hga', hb.ga, hga, hS.ga]
  · rw [hga', hchild]; simp
  · rw [hga', hchild, hnext, hb.next, hxn]; simp
  · intro r hr
    rw [hheap r (hr.trans_le hS.next)]
    exact hS.core r hr
  · intro r hr hn
    rw [hheap r (hr.trans_le hS.next)]
    exact hS.old r hr hn
  · rw [← hpop1]; exact e1
  · rw [← e2, (hS.core r0 h0lt).genotype]
  · intro r hr
    rw [hga'] at hr
    have hr2 := hr
    rw [hchild, List.mem_range'_1] at hr2
    obtain ⟨i, rfl⟩ : ∃ i, r = s1.next + i := ⟨r - s1.next, by omega⟩
    have hi : i < gs.length := by omega
    have hgi : gs[i]? = some gs[i] := List.getElem?_eq_getElem hi
    have hcell : s2.heap (s1.next + i) = { genotype := some gs[i] } := by
      rw [← hxn]; exact hb.new i _ hgi
    obtain ⟨a, b, p1, p2, pa, pb, ga1, gb1, hcr⟩ := hch i _ hgi
    obtain ⟨_, _, a', ham, hac⟩ := hS.fresh a (List.mem_of_getElem? pa)
    obtain ⟨_, _, b', hbm, hbc⟩ := hS.fresh b (List.mem_of_getElem? pb)
    rw [hac.genotype] at ga1
    rw [hbc.genotype] at gb1
    rcases hm _ hr with e | ⟨g, g', eg, e, hmut⟩
    · exact ⟨gs[i], by rw [e, hcell], a', b', p1, p2, gs[i], ham, hbm, ga1, gb1, hcr, Or.inl rfl⟩
    · rw [hcell] at e eg
      simp only [Option.some.injEq] at eg
      subst eg
      rw [hspec, har] at hmut
      exact ⟨g', e, a', b', p1, p2, gs[i], ham, hbm, ga1, gb1, hcr, Or.inr hmut⟩
  · rw [hga', hchild, hpar2, hlen]; simp
  · rw [es]; simp only; rw [hb.seed, hxseed, hS.seed]
  · rw [es]; simp only; rw [hb.conds, hxc, hS.conds]
  · rw [es]; simp only; rw [hb.calls, hxca, hS.calls]
  · rw [es]; simp only; rw [hb.snaps, hxs, hS.snaps]
  · rw [← hml2, ← hidx, ← har]; exact ⟨l1, l2⟩
  · rw [hnext, hb.next, hxn]; omega

theorem breed_ok {sel : M σ Unit} {m : Nat} {op : CrossOp} {mop : MutOp} {s s' : St σ} {u : Unit}
    (hsel : IsSelection sel m) (hal : ∀ r ∈ s.ga.population, r < s.next)
    (h : breed sel op mop s = (.ok u, s')) :
    Bore op mop s s' ∧ s'.ga.children.length = numPairs s.ga m := by
  obtain ⟨hB, s1, h1, _, _, hp⟩ := breed_bore hsel.selects hal h
  have hl := (hsel s s1 _ hal h1).2
  have hs := hB.size
  rw [hp, hl] at hs
  exact ⟨hB, by omega⟩

end BaumEva
