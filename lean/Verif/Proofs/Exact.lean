import Verif.Proofs.Liveness
import Verif.Props.Connected
/-!
# Runs that use up exactly given draws
-/
namespace BaumEva
open BaumEva.Spec
variable {σ α β : Type}

/-! ## tournaments -/

section
variable {κ : Type} [LinearOrder κ] {key : Ind σ → Except PyErr κ}

theorem secondParent_trim (size : Int) (first : Nat) : ∀ f : Nat, Trim (secondParent key size first f) := by
  intro f
  induction f with
  | zero => exact (Tame.throwE _).trim
  | succ f ih =>
    rw [secondParent]
    refine Trim.bind (Tame.oneTournament _ _).ext (Tame.oneTournament _ _).trim fun _ =>
      Trim.bind (Tame.getInd _).ext (Tame.getInd _).trim fun _ =>
      Trim.bind (Tame.getInd _).ext (Tame.getInd _).trim fun _ => ?_
    split
    · exact (Tame.pure _).trim
    · exact ih

theorem oneTournament_shrinks {size : Int} {s s' : St σ} {r : Nat} (h : oneTournament key size s = (.ok r, s')) :
    s'.tape.length < s.tape.length := by
  unfold oneTournament at h
  rw [bind_of_ok (getGa_run s)] at h
  obtain ⟨t, s1, h1, h2⟩ := bind_ok.mp h
  obtain ⟨_, _, _, hl, _⟩ := sample_ok h1
  have ht : t ≠ [] := by
    rintro rfl
    rw [getBest, throwE_ok] at h2
    exact h2
  obtain ⟨rfl, _⟩ := getBest_ok h2
  unfold sample at h1
  split at h1
  · rw [throwE_ok] at h1; exact h1.elim
  · have := sampleAux_tape h1
    have := List.length_pos_iff.mpr ht
    omega

/-- The search for a second parent needs at most one round per draw it uses. -/
theorem secondParent_rounds {size : Int} {first : Nat} : ∀ {f : Nat} {s s' : St σ} {r : Nat},
    secondParent key size first f s = (.ok r, s') → s'.tape.length < s.tape.length ∧
      secondParent key size first (s.tape.length - s'.tape.length) s = (.ok r, s') := by
  intro f
  induction f with
  | zero => intro s s' r h; rw [secondParent, throwE_ok] at h; exact h.elim
  | succ f ih =>
    intro s s' r h
    rw [secondParent] at h
    obtain ⟨b, s1, h1, h2⟩ := bind_ok.mp h
    have hs := oneTournament_shrinks h1
    rw [bind_of_ok (getInd_run _ _), bind_of_ok (getInd_run _ _)] at h2
    split at h2
    · rename_i hc
      obtain ⟨rfl, rfl⟩ := pure_ok.mp h2
      refine ⟨hs, ?_⟩
      obtain ⟨n, hn⟩ : ∃ n, s.tape.length - s'.tape.length = n + 1 := ⟨s.tape.length - s'.tape.length - 1, by omega⟩
      rw [hn]
      exact secondParent_hit h1 hc
    · rename_i hc
      obtain ⟨g1, g2⟩ := ih h2
      refine ⟨by omega, ?_⟩
      obtain ⟨n, hn⟩ : ∃ n, s.tape.length - s'.tape.length = n + 1 := ⟨s.tape.length - s'.tape.length - 1, by omega⟩
      rw [hn, secondParent_miss h1 hc]
      exact secondParent_mono (by omega) g2

theorem tournamentPair_trim (size : Int) : Trim (tournamentPair key size) := by
  intro s s' x hn h
  unfold tournamentPair at h ⊢
  obtain ⟨a, s1, h1, h2⟩ := bind_ok.mp h
  obtain ⟨p1, e1, k1⟩ := (Tame.oneTournament key size).trim s s1 a hn h1
  obtain ⟨_, n1⟩ := (Tame.oneTournament key size).ext s s1 a [] hn h1
  rw [bind_of_ok (getS_run _)] at h2
  obtain ⟨b, s2, h3, h4⟩ := bind_ok.mp h2
  obtain ⟨p2, e2, k2⟩ := secondParent_trim size a _ s1 s2 b n1 h3
  obtain ⟨_, n2⟩ := secondParent_ext size a _ s1 s2 b [] n1 h3
  obtain ⟨p3, e3, k3⟩ := ((Tame.addParent a).bind fun _ => Tame.addParent b).trim s2 s' x n2 h4
  refine ⟨p1 ++ (p2 ++ p3), by rw [e1, e2, e3]; simp, fun v => ?_⟩
  rw [List.append_assoc, bind_of_ok (k1 _), bind_of_ok (getS_run _)]
  have hr := (secondParent_rounds (k2 (p3 ++ v))).2
  have hl : ({ s1 with tape := p2 ++ (p3 ++ v) } : St σ).tape.length - ({ s2 with tape := p3 ++ v } : St σ).tape.length ≤
      ({ s1 with tape := p2 ++ (p3 ++ v) } : St σ).tape.length + 1 := by omega
  rw [show p2 ++ p3 ++ v = p2 ++ (p3 ++ v) from List.append_assoc ..]
  rw [bind_of_ok (secondParent_mono hl hr)]
  exact k3 v

theorem Trim.forEach {f : α → M σ Unit} (he : ∀ a, ExtOk (f a)) (h : ∀ a, Trim (f a)) :
    ∀ l : List α, Trim (BaumEva.forEach l f) := by
  intro l
  induction l with
  | nil => exact (Tame.pure ()).trim
  | cons x xs ih => exact Trim.bind (he x) (h x) fun _ => ih

theorem tournament_trim (size : Int) (m : Nat) : Trim (tournament key size m) := by
  unfold tournament
  exact Trim.bind Tame.getGa.ext Tame.getGa.trim fun _ =>
    Trim.forEach (fun _ => tournamentPair_ext size) (fun _ => tournamentPair_trim size) _

theorem tournamentExec_trim [LinearOrder σ] (size : Int) : Trim (tournamentExec size : M σ Unit) := by
  unfold tournamentExec
  exact Trim.bind (Tame.checkTournament _).ext (Tame.checkTournament _).trim fun _ =>
    Trim.bind Tame.baseSelection.ext Tame.baseSelection.trim fun _ => tournament_trim _ _

end

theorem generation_trim (fit : Fit ℚ) (size : Int) (op : CrossOp) (mop : MutOp) (tr : Transfer) :
    Trim (generation (singleOps fit (.tournament size) op mop tr)) :=
  Trim.bind (tournamentExec_ext size) (tournamentExec_trim size) fun _ => (breedRest_tame fit (.tournament size) op mop tr).trim

/-- The state after `k` generations depends on the draws used so far only. -/
theorem After.trim {fit : Fit ℚ} {size : Int} {op : CrossOp} {mop : MutOp} {tr : Transfer} {k : Nat} {s0 s : St ℚ}
    (hn : s0.seed = none) (h : After (singleOps fit (.tournament size) op mop tr) s0 k s) :
    ∃ pre, s0.tape = pre ++ s.tape ∧
      ∀ v, After (singleOps fit (.tournament size) op mop tr) { s0 with tape := pre ++ v } k { s with tape := v } := by
  induction h with
  | @first s1 s a b =>
    obtain ⟨_, n1⟩ := (Tame.baseFitness fit).ext s0 s1 () [] hn a
    obtain ⟨p1, e1, k1⟩ := (Tame.baseFitness fit).trim s0 s1 () hn a
    obtain ⟨p2, e2, k2⟩ := Tame.gaUpdate.trim s1 s () n1 b
    refine ⟨p1 ++ p2, by rw [e1, e2]; simp, fun v => ?_⟩
    rw [List.append_assoc]
    exact After.first (k1 _) (k2 v)
  | @next k s s' a b ih =>
    obtain ⟨_, n1⟩ := a.more hn []
    obtain ⟨p1, e1, k1⟩ := ih
    obtain ⟨p2, e2, k2⟩ := generation_trim fit size op mop tr s s' () n1 b
    refine ⟨p1 ++ p2, by rw [e1, e2]; simp, fun v => ?_⟩
    rw [List.append_assoc]
    exact After.next (k1 _) (k2 v)

/-! ## mutation -/

/-- `m` can be brought to `s'` (apart from the tape) by draws it uses up. -/
def Leads (m : M σ α) (s : St σ) (a : α) (s' : St σ) : Prop :=
  ∃ t, ∀ u, m { s with tape := t ++ u } = (.ok a, { s' with tape := u })

theorem Leads.bind {m : M σ α} {f : α → M σ β} {s s1 s2 : St σ} {a : α} {b : β} (h1 : Leads m s a s1)
    (h2 : Leads (f a) s1 b s2) : Leads (m >>= f) s b s2 := by
  obtain ⟨t1, k1⟩ := h1
  obtain ⟨t2, k2⟩ := h2
  exact ⟨t1 ++ t2, fun u => by rw [List.append_assoc, bind_of_ok (k1 _)]; exact k2 u⟩

theorem Leads.of_trim {m : M σ α} (h : Trim m) {s s' : St σ} {a : α} (hn : s.seed = none) (hm : m s = (.ok a, s')) :
    Leads m s a s' := by
  obtain ⟨pre, _, k⟩ := h s s' a hn hm
  exact ⟨pre, k⟩

theorem Leads.of_gives {m : M σ α} {t : List Nat} {a : α} (h : Gives m t a) (s : St σ) : Leads m s a s := ⟨t, h s⟩

/-- The genotype `g` can mutate into `g'`. -/
def MutTo (mop : MutOp) (spec : PopSpec) (lvl : MutLvl) (g g' : List Val) : Prop :=
  match mop with
  | .binString => ∃ t, Gives (σ := ℚ) (mutateBits lvl g) t g'
  | .categorical => ∃ pools, spec = .cat pools ∧ ∃ t, Gives (σ := ℚ) (mutateCat lvl pools g) t g'
  | _ => False

theorem mutateChild_leads {mop : MutOp} {r : Nat} {g g' : List Val} {s : St ℚ} (hg : (s.heap r).genotype = some g)
    (h : MutTo mop s.ga.attrs.spec (s.mutLvl.effective s.ga.attrs.arith) g g') :
    Leads (mutateChild mop r) s () { s with heap := upd s.heap r { s.heap r with genotype := some g' } } := by
  have hge : ∀ u, genoOf r { s with tape := u } = (.ok g, { s with tape := u }) := fun u =>
    genoOf_ok.mpr ⟨hg, rfl⟩
  cases mop with
  | binString =>
    obtain ⟨t, ht⟩ := h
    refine ⟨t, fun u => ?_⟩
    unfold mutateChild
    rw [bind_of_ok (getS_run _)]
    show (genoOf r >>= _) _ = _
    rw [bind_of_ok (hge _)]
    show (mutateBits (s.mutLvl.effective s.ga.attrs.arith) g >>= _) _ = _
    rw [bind_of_ok (ht s u)]
    rfl
  | categorical =>
    obtain ⟨pools, hp, t, ht⟩ := h
    refine ⟨t, fun u => ?_⟩
    unfold mutateChild
    rw [bind_of_ok (getS_run _)]
    show (genoOf r >>= _) _ = _
    rw [bind_of_ok (hge _)]
    simp only [hp]
    rw [bind_of_ok (ht s u)]
    rfl
  | inversion => exact h.elim
  | movement => exact h.elim
  | swap => exact h.elim
  | shift => exact h.elim

theorem forall₂_imp_left {γ δ : Type} {R S : γ → δ → Prop} : ∀ {l : List γ} {l' : List δ}, List.Forall₂ R l l' →
    (∀ a b, a ∈ l → R a b → S a b) → List.Forall₂ S l l' := by
  intro l l' h
  induction h with
  | nil => intro _; exact .nil
  | cons a _ ih =>
    intro k
    exact .cons (k _ _ List.mem_cons_self a) (ih fun x y hx => k x y (List.mem_cons_of_mem _ hx))

theorem mutLoop_leads {mop : MutOp} : ∀ {cs : List Nat} {gs : List (List Val)} {s : St ℚ}, cs.Nodup →
    List.Forall₂ (fun r g' => ∃ g, (s.heap r).genotype = some g ∧
      MutTo mop s.ga.attrs.spec (s.mutLvl.effective s.ga.attrs.arith) g g') cs gs →
    ∃ s', Leads (forEach cs (mutateChild mop)) s () s' ∧ List.Forall₂ (fun r g' => (s'.heap r).genotype = some g') cs gs ∧
      ∀ r, r ∉ cs → s'.heap r = s.heap r := by
  intro cs
  induction cs with
  | nil => intro gs s _ h; cases h; exact ⟨s, ⟨[], fun u => rfl⟩, .nil, fun _ _ => rfl⟩
  | cons c cs ih =>
    intro gs s hd h
    cases h with
    | @cons _ g' _ gs h1 h2 =>
      obtain ⟨g, hg, hm⟩ := h1
      rw [List.nodup_cons] at hd
      have l1 := mutateChild_leads hg hm
      obtain ⟨s', l2, k1, k2⟩ := ih (gs := gs)
        (s := { s with heap := upd s.heap c { s.heap c with genotype := some g' } }) hd.2 (by
          refine forall₂_imp_left h2 ?_
          rintro r g2 hr ⟨g3, e1, e2⟩
          refine ⟨g3, ?_, e2⟩
          have : r ≠ c := fun e => hd.1 (e ▸ hr)
          simpa [upd, this] using e1)
      refine ⟨s', Leads.bind l1 l2, .cons ?_ k1, ?_⟩
      · rw [k2 c hd.1]; simp [upd]
      · intro r hr
        rw [List.mem_cons, not_or] at hr
        rw [k2 r hr.2]
        simp [upd, hr.1]

theorem mutExec_leads {mop : MutOp} {gs : List (List Val)} {s : St ℚ} (hd : s.ga.children.Nodup) {lvl : MutLvl}
    (hlvl : (mop ≠ .binString → lvl = s.mutLvl) ∧ (mop = .binString → updateMutLvlR s.ga.attrs.arith.rnd s.mutLvl (s.ga.attrs.idxBits.getLastD 0) = .ok lvl))
    (hsp : mop = .binString → ∃ gray gens, s.ga.attrs.spec = .binary gray gens)
    (h : List.Forall₂ (fun r g' => ∃ g, (s.heap r).genotype = some g ∧ 
      MutTo mop s.ga.attrs.spec (lvl.effective s.ga.attrs.arith) g g') s.ga.children gs) :
    ∃ s', Leads (mutExec mop) s () s' ∧ List.Forall₂ (fun r g' => (s'.heap r).genotype = some g') s.ga.children gs := by
  by_cases hop : mop = .binString
  · subst hop
    obtain ⟨gray, gens, hs⟩ := hsp rfl
    obtain ⟨s', ⟨t, ht⟩, k, _⟩ := mutLoop_leads (mop := .binString) (s := { s with mutLvl := lvl }) hd h
    refine ⟨s', ⟨t, fun u => ?_⟩, k⟩
    unfold mutExec
    rw [bind_of_ok (getS_run _)]
    simp only [hs]
    rw [bind_of_ok (liftE_ok.mpr ⟨hlvl.2 rfl, rfl⟩), bind_of_ok (modifyS_run _ _)]
    exact ht u
  · obtain ⟨s', ⟨t, ht⟩, k, _⟩ := mutLoop_leads (mop := mop) (s := s) hd (by rw [← hlvl.1 hop]; exact h)
    refine ⟨s', ⟨t, fun u => ?_⟩, k⟩
    unfold mutExec
    rw [bind_of_ok (getS_run _)]
    cases mop with
    | binString => exact absurd rfl hop
    | categorical => exact ht u
    | inversion => exact ht u
    | movement => exact ht u
    | swap => exact ht u
    | shift => exact ht u

/-! ## a generation with given children -/

theorem SafeSetup.withTape {fit : Fit ℚ} {sel : SelOp} {op : CrossOp} {mop : MutOp} {tr : Transfer} {P : List Val → Prop}
    {s0 : St ℚ} (h : SafeSetup fit sel op mop tr P s0) (u : List Nat) : SafeSetup fit sel op mop tr P { s0 with tape := u } :=
  ⟨⟨⟨h.fresh.alive, h.fresh.distinct, h.fresh.unscored, h.fresh.unsorted, h.fresh.best, h.fresh.noImprove, h.fresh.idx,
    h.fresh.histBest, h.fresh.histMed, h.fresh.histWorst, h.fresh.histFronts, h.fresh.snaps⟩, h.closed, h.first, h.full,
    h.two, h.cross, h.mutable, h.ready, h.random, h.decode, h.eval, h.stop⟩, h.sel⟩

theorem gaUpdate_members {s s' : St ℚ} {u : Unit} (h : gaUpdate s = (.ok u, s')) {r : Nat} (hr : r ∈ s.ga.population)
    (hlt : r < s.next) : r ∈ s'.ga.population ∧ s'.heap r = s.heap r := by
  obtain ⟨pop, rb, rm, rw', b, m, w, hperm, _, _, _, _, _, _, _, _, s1, hdec, rfl⟩ := gaUpdate_ok h
  have h1 : s1.ga.population = pop ∧ s1.heap r = s.heap r := by
    cases hdec with
    | first _ => exact ⟨rfl, by simp [upd, Nat.ne_of_lt hlt]⟩
    | better _ _ _ _ => exact ⟨rfl, by simp [upd, Nat.ne_of_lt hlt]⟩
    | same _ _ _ _ => exact ⟨rfl, rfl⟩
  exact ⟨by simp only; rw [h1.1]; exact hperm.mem_iff.mpr hr, h1.2⟩

/-- The level the mutation of the next generation works with. -/
def NextLvl {σ : Type} (mop : MutOp) (s : St σ) (lvl : MutLvl) : Prop :=
  (mop ≠ .binString → lvl = s.mutLvl) ∧ (mop = .binString → updateMutLvlR s.ga.attrs.arith.rnd s.mutLvl (s.ga.attrs.idxBits.getLastD 0) = .ok lvl)

/-- If every result of a crossover can mutate into each of the genotypes `gs`, then these can be the genotypes of the
children of the next generation. -/
theorem SafeSetup.generation_any {fit : Fit ℚ} {size : Int} {op : CrossOp} {mop : MutOp} {tr : Transfer}
    {P : List Val → Prop} {s0 : St ℚ} (h0 : SafeSetup fit (.tournament size) op mop tr P s0) (hn : s0.seed = none)
    (hsz : size ≤ numPairs s0.ga 1) (h2 : 2 ≤ size) (hlt : size < s0.ga.attrs.numIndivid) {k : Nat} {s : St ℚ}
    (h : After (singleOps fit (.tournament size) op mop tr) s0 k s) {gs : List (List Val)} (hl : gs.length = numPairs s0.ga 1)
    {lvl : MutLvl} (hlvl : NextLvl mop s lvl)
    (hmut : ∀ g0 p1 p2 g1 g', P g0 → P p1 → P p2 → CrossResult ℚ op g0.length p1 p2 g1 → g' ∈ gs →
      MutTo mop s0.ga.attrs.spec (lvl.effective s0.ga.attrs.arith) g1 g') :
    ∃ u s', BaumEva.generation (singleOps fit (.tournament size) op mop tr) { s with tape := u } = (.ok (), s') ∧
      ∀ g ∈ gs, ∃ r ∈ s'.ga.population, (s'.heap r).genotype = some g := by
  have hops := singleOps_run fit (.tournament size) op mop tr
  obtain ⟨pre, _, htrim⟩ := h.trim hn
  obtain ⟨_, hseed⟩ := h.more hn []
  have hI := h0.inv h
  -- any run of the generation
  obtain ⟨u, _, s', hg⟩ := (h0.withTape (pre ++ [])).generation_poss hn hsz h2 hlt (htrim [])
  have hg : (tournamentExec size >>= fun _ => crossExec op >>= fun _ => mutExec mop >>= fun _ => newGenExec tr >>= fun _ =>
      baseFitnessExec fit >>= fun _ => gaUpdate) { s with tape := u } = (.ok _, s') := hg
  obtain ⟨_, s1, e1, hg⟩ := bind_ok.mp hg
  obtain ⟨_, s2, e2, hg⟩ := bind_ok.mp hg
  have n1 := (tournamentExec_ext size { s with tape := u } s1 () [] hseed e1).2
  have n2 := ((Tame.crossExec op).ext s1 s2 () [] n1 e2).2
  obtain ⟨t1, k1⟩ := Leads.of_trim (tournamentExec_trim size) (s := { s with tape := u }) hseed e1
  obtain ⟨t2, k2⟩ := Leads.of_trim (Tame.crossExec op).trim n1 e2
  -- its children before mutation
  have hal := hI.run.settled.alive
  have hS : Selected { s with tape := u } s1 := (hops.selection { s with tape := u } s1 () hal e1).1
  have hlen := (hops.selection { s with tape := u } s1 () hal e1).2
  obtain ⟨r0, g0, a1, a2, sx, gs1, hd, hga, hb, hlp, hch⟩ := crossExec_ok e2 (fun r hr => (hS.fresh r hr).2.1)
  have hPof : ∀ z q, z ∈ s.ga.population → (s.heap z).genotype = some q → P q := by
    intro z q hz hq
    obtain ⟨q', d1, d2, _⟩ := hI.good z hz
    rw [hq] at d1
    injection d1 with d1
    rw [d1]; exact d2
  have hpop1 : s1.ga.population = s.ga.population := by rw [hS.ga]
  have hxn : sx.next = s1.next := by obtain ⟨t, ht⟩ := hd; simp at ht; simp [ht]
  have hxml : sx.mutLvl = s1.mutLvl := by obtain ⟨t, ht⟩ := hd; simp at ht; simp [ht]
  have hchild : s2.ga.children = List.range' s1.next gs1.length := by rw [hb.ga, hga, hxn]; simp
  have hspec : s2.ga.attrs = s.ga.attrs := by rw [hb.ga, hga, hS.ga]
  have hml2 : s2.mutLvl = s.mutLvl := by rw [hb.mutLvl, hxml, hS.mutLvl]
  have hr0 : r0 ∈ s.ga.population := by rw [← hpop1]; exact List.mem_of_mem_head? a1
  have hP0 : P g0 := by
    refine hPof r0 g0 hr0 ?_
    rw [← a2, (hS.core r0 (hal r0 hr0)).genotype]
  have hpairs : numPairs s.ga 1 = numPairs s0.ga 1 := by
    unfold numPairs; rw [hI.percent, hI.attrs]
  have hgl : gs.length = gs1.length := by
    have : numPairs ({ s with tape := u } : St ℚ).ga 1 = numPairs s.ga 1 := rfl
    omega
  -- the wanted mutation
  have hf : List.Forall₂ (fun r g' => ∃ g, (s2.heap r).genotype = some g ∧ 
      MutTo mop s2.ga.attrs.spec (lvl.effective s2.ga.attrs.arith) g g')
      s2.ga.children gs := by
    rw [List.forall₂_iff_get]
    refine ⟨by rw [hchild]; simp [hgl], ?_⟩
    intro i i1 i2
    have hi : i < gs1.length := by omega
    have hgi : gs1[i]? = some gs1[i] := List.getElem?_eq_getElem hi
    have hc : s2.ga.children.get ⟨i, i1⟩ = s1.next + i := by
      simp only [hchild, List.get_eq_getElem, List.getElem_range']
      omega
    rw [hc]
    refine ⟨gs1[i], ?_, ?_⟩
    · rw [← hxn, hb.new i _ hgi]
    · obtain ⟨a, b, p1, p2, pa, pb, ga1, gb1, hcr⟩ := hch i _ hgi
      obtain ⟨_, _, a', ham, hac⟩ := hS.fresh a (List.mem_of_getElem? pa)
      obtain ⟨_, _, b', hbm, hbc⟩ := hS.fresh b (List.mem_of_getElem? pb)
      rw [hac.genotype] at ga1
      rw [hbc.genotype] at gb1
      rw [hspec, hI.attrs]
      exact hmut g0 p1 p2 _ _ hP0 (hPof a' p1 ham ga1) (hPof b' p2 hbm gb1) hcr (List.get_mem ..)
  obtain ⟨s3, ⟨t3, k3⟩, hgeno⟩ := mutExec_leads (s := s2) (gs := gs) (by rw [hchild]; exact List.nodup_range') (lvl := lvl)
    (by rw [hml2, hspec]; exact hlvl) (fun hop => by rw [hspec, hI.attrs]; exact (h0.ready.2 hop).1) hf
  -- the rest of the generation
  have hrun : ∀ w, BaumEva.generation (singleOps fit (.tournament size) op mop tr) { s with tape := t1 ++ (t2 ++ (t3 ++ w)) } =
      (newGenExec tr >>= fun _ => baseFitnessExec fit >>= fun _ => gaUpdate) { s3 with tape := w } := by
    intro w
    show (tournamentExec size >>= fun _ => crossExec op >>= fun _ => mutExec mop >>= fun _ => newGenExec tr >>= fun _ =>
      baseFitnessExec fit >>= fun _ => gaUpdate) { s with tape := t1 ++ (t2 ++ (t3 ++ w)) } = _
    rw [bind_of_ok (k1 _), bind_of_ok (k2 _), bind_of_ok (k3 _)]
  have htame : Tame (newGenExec tr >>= fun _ => baseFitnessExec fit >>= fun _ => gaUpdate : M ℚ Unit) :=
    (Tame.newGenExec tr).bind fun _ => (Tame.baseFitness fit).bind fun _ => Tame.gaUpdate
  have n3 : s3.seed = none := by
    have := ((Tame.mutExec mop).ext { s2 with tape := t3 ++ [] } _ () [] n2 (k3 [])).2
    exact this
  obtain ⟨w, _, s', hw⟩ := Poss.of_tame (s := { s3 with tape := [] }) n3 htame (by
    intro w e s' hx
    refine ((h0.withTape (pre ++ (t1 ++ (t2 ++ (t3 ++ w))))).generation (htrim _)) e s' ?_
    rw [hrun w]
    exact hx)
  have hw : (newGenExec tr >>= fun _ => baseFitnessExec fit >>= fun _ => gaUpdate) { s3 with tape := w } = (.ok (), s') := hw
  rw [← hrun w] at hw
  refine ⟨_, s', hw, ?_⟩
  have hset : Settled ({ s with tape := t1 ++ (t2 ++ (t3 ++ w)) } : St ℚ) :=
    ⟨hI.run.settled.alive, hI.run.settled.asc, hI.run.settled.sorted, hI.run.settled.best⟩
  obtain ⟨b1, b2, b3, es, t, hbr, hB, _, hel, d2, _, _, _, _, hF, hup, _⟩ := generation_steps hops hset hw
  have hb1 : b1 = { s3 with tape := w } := by
    have : breed (tournamentExec size) op mop { s with tape := t1 ++ (t2 ++ (t3 ++ w)) } = (.ok (), { s3 with tape := w }) := by
      unfold breed
      rw [bind_of_ok (k1 _), bind_of_ok (k2 _)]
      exact k3 _
    have hbr : breed (tournamentExec size) op mop { s with tape := t1 ++ (t2 ++ (t3 ++ w)) } = (.ok (), b1) := hbr
    rw [this] at hbr
    exact (Prod.mk.inj hbr).2.symm
  have hga3 : s3.ga = s2.ga := by
    obtain ⟨⟨t, hp, es⟩, _⟩ := mutExec_ok (k3 []) (by simp only; rw [hchild]; exact List.nodup_range')
    have := congrArg St.ga es
    exact this
  intro g hgm
  obtain ⟨i, hi, rfl⟩ := List.getElem_of_mem hgm
  have hi2 : i < s2.ga.children.length := by rw [hchild]; simp; omega
  have hgi := (List.forall₂_iff_get.mp hgeno).2 i hi2 hi
  simp only [List.get_eq_getElem] at hgi
  set r := s2.ga.children[i] with hr
  have hrc : r ∈ b1.ga.children := by rw [hb1]; show r ∈ s3.ga.children; rw [hga3]; exact List.getElem_mem hi2
  have hrp : r ∈ b2.ga.population := by rw [d2]; exact List.mem_append_left _ hrc
  have hrlt : r < b3.next := by
    have h1 : r < b1.next := by
      obtain ⟨n0, _, q1, q2⟩ := hB.range
      rw [q1, List.mem_range'_1] at hrc
      omega
    rw [hF.shape, d2]
    exact h1
  obtain ⟨m1, m2⟩ := gaUpdate_members hup (by rw [hF.ga]; exact hrp) hrlt
  refine ⟨r, m1, ?_⟩
  rw [m2, hF.geno r hrp, d2]
  show (b1.heap r).genotype = _
  rw [hb1]
  exact hgi

end BaumEva
