import Verif.Props.Ledger
import Verif.Props.Invariance
/-!
# C75: mistakes in the parameters are reported before the objective is called
-/
namespace BaumEva
open Spec

/-- The documented mutation levels: a probability, or one of three words (not for `CategoricalMutation`). -/
def LevelOk (mutOp : MutOp) (lvl : MutLvl) : Prop :=
  (∃ q, lvl = .float q ∧ 0 ≤ q ∧ q ≤ 1) ∨
  (mutOp ≠ .categorical ∧ (lvl = .str "weak" ∨ lvl = .str "normal" ∨ lvl = .str "strong"))

/-- Mistakes in the parameters of `optimize()`. -/
inductive Mistake (c : Cfg) (spec : PopSpec) (mutOp : MutOp) (multi : Bool) (conds : Option (List Cond)) : Prop
  /-- more individuals are passed than the population has -/
  | room (h : c.numIndivid < (c.input.getD []).length)
  /-- constraints, but nothing to optimize (single-objective classes) -/
  | conditions (cs : List Cond) (h1 : c.penalty ≠ none) (h2 : conds = some cs) (h3 : 2 ≤ cs.length) (h4 : .optimize ∉ cs)
      (h5 : multi = false)
  /-- the mutation level -/
  | level (h : ¬ LevelOk mutOp c.mutationLvl)
  /-- the word for the transfer of parents -/
  | transfer (h1 : c.transfer ≠ "best") (h2 : c.transfer ≠ "random")
  /-- a gene without a grid -/
  | gene (gray : Bool) (gens : List BinGene) (h1 : spec = .binary gray gens) (g : BinGene) (h2 : g ∈ gens) (h3 : Degenerate g)
      (h4 : c.arith = .exact ∨ g.step = 0)
  /-- a passed individual outside the box -/
  | input (gray : Bool) (gens : List BinGene) (h1 : spec = .binary gray gens) (x : List Val) (h2 : x ∈ c.input.getD [])
      (h3 : ¬ List.Forall₂ InGene gens x)

section
variable {σ : Type}

theorem checkMutation_cases (op : MutOp) (lvl : MutLvl) :
    (LevelOk op lvl ∧ ∃ l, checkMutation op lvl = .ok l) ∨ ∃ e, e ≠ .exhausted ∧ checkMutation op lvl = .error e := by
  unfold checkMutation
  cases lvl with
  | other => exact .inr ⟨_, by simp, rfl⟩
  | float q =>
    simp only []
    by_cases h : q < 0 ∨ 1 < q
    · exact .inr ⟨_, by simp, if_pos h⟩
    · push Not at h
      exact .inl ⟨.inl ⟨q, rfl, h⟩, _, if_neg (by push Not; exact h)⟩
  | str x =>
    have key : ∀ r : Except PyErr MutLvl, op ≠ .categorical → (x = "weak" ∨ x = "normal" ∨ x = "strong") → (∃ l, r = .ok l) →
        (LevelOk op (.str x) ∧ ∃ l, r = .ok l) ∨ ∃ e, e ≠ .exhausted ∧ r = .error e := by
      intro r h1 h2 h3
      refine .inl ⟨.inr ⟨h1, ?_⟩, h3⟩
      rcases h2 with rfl | rfl | rfl <;> simp
    cases op with
    | categorical => exact .inr ⟨_, by simp, rfl⟩
    | binString =>
      simp only []
      by_cases h : x = "weak" ∨ x = "normal" ∨ x = "strong"
      · rw [if_pos h]; exact key _ (by simp) h ⟨_, rfl⟩
      · rw [if_neg h]; exact .inr ⟨_, by simp, rfl⟩
    | _ =>
      simp only []
      by_cases h1 : x = "weak"
      · rw [if_pos h1]; exact key _ (by simp) (.inl h1) ⟨_, rfl⟩
      · by_cases h2 : x = "normal"
        · rw [if_neg h1, if_pos h2]; exact key _ (by simp) (.inr (.inl h2)) ⟨_, rfl⟩
        · by_cases h3 : x = "strong"
          · rw [if_neg h1, if_neg h2, if_pos h3]; exact key _ (by simp) (.inr (.inr h3)) ⟨_, rfl⟩
          · rw [if_neg h1, if_neg h2, if_neg h3]; exact .inr ⟨_, by simp, rfl⟩

theorem encodeGenesR_inGene {rnd : ℚ → ℚ} {gray : Bool} : ∀ {gens : List BinGene} {ps : List GeneParams} {xs l : List Val},
    gens.length = ps.length → xs.length = gens.length → encodeGenesR rnd gray gens ps xs = .ok l → List.Forall₂ InGene gens xs := by
  intro gens
  induction gens with
  | nil => intro ps xs l _ h2 _; cases xs with
    | nil => exact .nil
    | cons _ _ => simp at h2
  | cons g gs ih =>
    intro ps xs l h1 h2 h
    cases ps with
    | nil => simp at h1
    | cons p ps =>
      cases xs with
      | nil => simp at h2
      | cons x xs =>
        cases x with
        | str t => cases h
        | num q =>
          simp only [encodeGenesR] at h
          split at h
          · cases h
          · rename_i hq
            push Not at hq
            cases he : encodeIndex gray (stepIdxR rnd g p q).toNat p.numBits with
            | error e => rw [he] at h; cases h
            | ok b =>
              cases hr : encodeGenesR rnd gray gs ps xs with
              | error e => rw [he, hr] at h; cases h
              | ok r => exact .cons ⟨q, rfl, hq⟩ (ih (by simpa using h1) (by simpa using h2) hr)

theorem encodeIndividRErr {rnd : ℚ → ℚ} {gray : Bool} {gens : List BinGene} {ps : List GeneParams} {xs : List Val} {e : PyErr}
    (h : encodeIndividR rnd gray gens ps xs = .error e) : e ≠ .exhausted := by
  unfold encodeIndividR at h
  split at h
  · injection h with h; rw [← h]; simp
  · clear * - h
    induction gens generalizing ps xs e with
    | nil => simp [encodeGenesR] at h
    | cons g gs ih =>
      cases ps with
      | nil => simp [encodeGenesR] at h
      | cons p ps =>
        cases xs with
        | nil => simp [encodeGenesR] at h
        | cons x xs =>
          cases x with
          | str t => injection h with h; rw [← h]; simp
          | num q =>
            simp only [encodeGenesR] at h
            split at h
            · injection h with h; rw [← h]; simp
            · cases he : encodeIndex gray (stepIdxR rnd g p q).toNat p.numBits with
              | error e' =>
                rw [he] at h
                injection h with h
                unfold encodeIndex indexToBinary at he
                subst h
                intro hx
                subst hx
                repeat' split at he
                all_goals simp at he
              | ok b =>
                cases hr : encodeGenesR rnd gray gs ps xs with
                | error e' =>
                  rw [he, hr] at h
                  injection h with h
                  subst h
                  exact ih hr
                | ok r => rw [he, hr] at h; cases h

theorem gensParamsR_err {rnd : ℚ → ℚ} : ∀ {gens : List BinGene} {off : Nat} {e : PyErr}, gensParamsR rnd gens off = .error e →
    e = .zeroDivision := by
  intro gens
  induction gens with
  | nil => intro off e h; cases h
  | cons g gs ih =>
    intro off e h
    rw [gensParamsR] at h
    cases hp : geneParamsR rnd g with
    | error e' =>
      rw [hp] at h
      injection h with h
      unfold geneParamsR at hp
      simp only at hp
      repeat' split at hp
      all_goals try cases hp
      all_goals exact h.symm
    | ok p =>
      rw [hp] at h
      cases hr : gensParamsR rnd gs (off + p.numBits) with
      | error e' =>
        have h : (Except.error e' : Except PyErr (List GeneParams × List Nat)) = .error e := by
          rw [← h]; show _ = (gensParamsR rnd gs (off + p.numBits) >>= _); rw [hr]; rfl
        injection h with h
        rw [← h]
        exact ih hr
      | ok r =>
        have h : (Except.ok (p :: r.1, (off + p.numBits) :: r.2) : Except PyErr (List GeneParams × List Nat)) = .error e := by
          rw [← h]; show _ = (gensParamsR rnd gs (off + p.numBits) >>= _); rw [hr]; rfl
        cases h

/-- The genes without a grid: `get_gens_params` divides by zero. -/
theorem gensParamsR_fails {ar : Arith} {gens : List BinGene} {off : Nat}
    (h : ∃ g ∈ gens, Degenerate g ∧ (ar = .exact ∨ g.step = 0)) : ∃ e, gensParamsR ar.rnd gens off = .error e := by
  by_cases hx : ar = .exact
  · obtain ⟨g, h1, h2, _⟩ := h
    rw [hx, Arith.exact_rnd, gensParamsR_id]
    exact ⟨_, gensParams_degenerate ⟨g, h1, h2⟩⟩
  · obtain ⟨g, h1, _, h2⟩ := h
    have h2 : g.step = 0 := by rcases h2 with h2 | h2; exacts [absurd h2 hx, h2]
    clear hx
    induction gens generalizing off with
    | nil => cases h1
    | cons a gs ih =>
      rw [gensParamsR]
      cases hp : geneParamsR ar.rnd a with
      | error e => exact ⟨e, rfl⟩
      | ok p =>
        have h3 : g ∈ gs := by
          rcases List.mem_cons.mp h1 with rfl | h1
          · unfold geneParamsR at hp
            simp only at hp
            rw [if_pos h2] at hp
            cases hp
          · exact h1
        obtain ⟨e, he⟩ := ih (off := off + p.numBits) h3
        refine ⟨e, ?_⟩
        show (gensParamsR ar.rnd gs (off + p.numBits) >>= _) = _
        rw [he]
        rfl

theorem gensParamsR_length {rnd : ℚ → ℚ} : ∀ {gens : List BinGene} {off : Nat} {r : List GeneParams × List Nat},
    gensParamsR rnd gens off = .ok r → gens.length = r.1.length := by
  intro gens
  induction gens with
  | nil => intro off r h; injection h with h; rw [← h]; rfl
  | cons g gs ih =>
    intro off r h
    rw [gensParamsR] at h
    cases hp : geneParamsR rnd g with
    | error e' => rw [hp] at h; cases h
    | ok p =>
      rw [hp] at h
      cases hr : gensParamsR rnd gs (off + p.numBits) with
      | error e' =>
        have h : (Except.error e' : Except PyErr (List GeneParams × List Nat)) = .ok r := by
          rw [← h]; show _ = (gensParamsR rnd gs (off + p.numBits) >>= _); rw [hr]; rfl
        cases h
      | ok r' =>
        have h : (Except.ok (p :: r'.1, (off + p.numBits) :: r'.2) : Except PyErr (List GeneParams × List Nat)) = .ok r := by
          rw [← h]; show _ = (gensParamsR rnd gs (off + p.numBits) >>= _); rw [hr]; rfl
        injection h with h
        rw [← h]
        simp [ih hr]

/-- A loop that adopts passed individuals stops at the first that is rejected. -/
theorem adoptLoop_err {f : List Val → Except PyErr (List Val)} (hf : ∀ x e, f x = .error e → e ≠ .exhausted) :
    ∀ {l : List (List Val)} (s : St σ), (∃ x ∈ l, ∃ e, f x = .error e) →
    ∃ e, e ≠ .exhausted ∧ (forEach l (fun x => liftE (f x) >>= fun g => addDict g) s).1 = .error e := by
  intro l
  induction l with
  | nil => rintro s ⟨x, hx, _⟩; simp at hx
  | cons y ys ih =>
    rintro s ⟨x, hx, e, he⟩
    rw [forEach, bind_run]
    cases hy : f y with
    | error e' =>
      have : (liftE (Except.error e') >>= fun g => addDict g : M σ Unit) s = (.error e', s) := bind_of_err rfl
      rw [this]
      exact ⟨e', hf y e' hy, rfl⟩
    | ok g =>
      have hadd : (liftE (Except.ok g) >>= fun g => addDict g : M σ Unit) s = addDict g s := bind_of_ok rfl
      rw [hadd]
      obtain ⟨s1, h1⟩ : ∃ s1, addDict g s = (.ok (), s1) := ⟨_, rfl⟩
      rw [h1]
      refine ih s1 ⟨x, ?_, e, he⟩
      rcases List.mem_cons.mp hx with rfl | hx
      · rw [hy] at he; cases he
      · exact hx

/-- `fill` reports a gene without a grid and a passed individual outside the box, before it draws anything. -/
theorem fill_reports {input : Option (List (List Val))} {gray : Bool} {gens : List BinGene} {s : St σ}
    (hs : s.ga.attrs.spec = .binary gray gens)
    (h : (∃ g ∈ gens, Degenerate g ∧ (s.ga.attrs.arith = .exact ∨ g.step = 0)) ∨ ∃ x ∈ input.getD [], ¬ List.Forall₂ InGene gens x) :
    ∃ e, e ≠ .exhausted ∧ (fill input s).1 = .error e := by
  unfold fill prepare
  rw [bind_run, bind_of_ok (getGa_run s), hs]
  simp only []
  cases hg : gensParamsR s.ga.attrs.arith.rnd gens 0 with
  | error e =>
    rw [bind_of_err (show (liftE (Except.error e) : M σ (List GeneParams × List Nat)) s = (.error e, s) from rfl)]
    exact ⟨e, by rw [gensParamsR_err hg]; simp, rfl⟩
  | ok r =>
    rw [bind_of_ok (show (liftE (Except.ok r) : M σ (List GeneParams × List Nat)) s = (.ok r, s) from rfl), modGa_run]
    simp only []
    rcases h with h | ⟨x, hx, hbad⟩
    · obtain ⟨e, he⟩ := gensParamsR_fails (off := 0) h
      rw [he] at hg; cases hg
    · rw [bind_of_ok (getGa_run _), bind_run]
      obtain ⟨e, he, h2⟩ := adoptLoop_err (σ := σ) (f := fun x => encodeIndividR s.ga.attrs.arith.rnd gray gens r.1 x)
        (fun x e => encodeIndividRErr) (l := input.getD [])
        { s with ga := { s.ga with attrs := { s.ga.attrs with params := r.1, idxBits := 0 :: r.2 } } } (by
          refine ⟨x, hx, ?_⟩
          cases hx' : encodeIndividR s.ga.attrs.arith.rnd gray gens r.1 x with
          | error e => exact ⟨e, rfl⟩
          | ok l =>
            exfalso
            unfold encodeIndividR at hx'
            split at hx'
            · cases hx'
            · rename_i hlen
              push Not at hlen
              exact hbad (encodeGenesR_inGene (gensParamsR_length hg) hlen hx'))
      have hfun : (fun x => liftE (adopt { s.ga.attrs with params := r.1, idxBits := 0 :: r.2 } x) >>= fun g => (addDict g : M σ Unit)) =
          fun x => liftE (encodeIndividR s.ga.attrs.arith.rnd gray gens r.1 x) >>= fun g => addDict g := by
        funext x
        unfold adopt
        rw [show ({ s.ga.attrs with params := r.1, idxBits := 0 :: r.2 } : Attrs).spec = .binary gray gens from hs]
      simp only [hfun]
      rcases hrun : forEach (input.getD []) (fun x => liftE (encodeIndividR s.ga.attrs.arith.rnd gray gens r.1 x) >>= fun g => (addDict g : M σ Unit))
        { s with ga := { s.ga with attrs := { s.ga.attrs with params := r.1, idxBits := 0 :: r.2 } } } with ⟨_ | u, s'⟩
      · rw [hrun] at h2
        injection h2 with h2
        exact ⟨_, he, by rw [← h2]⟩
      · rw [hrun] at h2; cases h2

/-- A mistake makes the preparation fail, whatever is drawn. -/
theorem startUp_mistake {c : Cfg} {spec : PopSpec} {task : Task σ} (hp : task.penalty = c.penalty) {mutOp : MutOp} {s : St σ}
    (h : Mistake c spec mutOp task.multi s.conds) :
    ∃ e, e ≠ .exhausted ∧ (startUp c spec task mutOp s).1 = .error e := by
  unfold startUp newGaData
  rw [bind_of_ok (modifyS_run _ _)]
  obtain ⟨t, ht⟩ : ∃ t, newPopulation { s with ga := { numGenerations := c.numGenerations, childrenPercent := c.childrenPercent, earlyStop := some c.stop, attrs := { arith := c.arith } }, snaps := [] } = (.ok (), { s with ga := { numGenerations := c.numGenerations, childrenPercent := c.childrenPercent, earlyStop := some c.stop, attrs := { arith := c.arith } }, snaps := [], tape := t }) := by
    unfold newPopulation reseed
    cases hsd : s.seed with
    | none => exact ⟨s.tape, rfl⟩
    | some t => exact ⟨t, rfl⟩
  rw [bind_of_ok ht]
  by_cases hl : c.numIndivid < (c.input.getD []).length
  · refine ⟨.exception, by simp, ?_⟩
    rw [bind_of_err (s' := { s with ga := { numGenerations := c.numGenerations, childrenPercent := c.childrenPercent, earlyStop := some c.stop, attrs := { arith := c.arith } }, snaps := [], tape := t }) (e := .exception)]
    unfold setParams
    rw [ite_run, if_pos hl]; rfl
  · let s3 : St σ := { s with ga := { numGenerations := c.numGenerations, childrenPercent := c.childrenPercent, earlyStop := some c.stop, population := [], attrs := { numIndivid := c.numIndivid, spec := spec, isPhenotype := spec.hasPhenotype, arith := c.arith } }, snaps := [], tape := t }
    have h3 : setParams spec c.numIndivid c.input { s with ga := { numGenerations := c.numGenerations, childrenPercent := c.childrenPercent, earlyStop := some c.stop, attrs := { arith := c.arith } }, snaps := [], tape := t } = (.ok (), s3) := by
      unfold setParams
      rw [ite_run, if_neg hl]; rfl
    rw [bind_of_ok h3]
    rcases hnf : newFitness task s3 with ⟨e | fit, s4⟩
    · rw [bind_of_err hnf]
      refine ⟨e, ?_, rfl⟩
      unfold newFitness at hnf
      rw [bind_of_ok (getS_run s3)] at hnf
      cases hpen : task.penalty with
      | none => rw [hpen] at hnf; cases hnf
      | some p =>
        rw [hpen] at hnf
        simp only [] at hnf
        split at hnf
        · cases hnf
        · split at hnf
          · cases hnf
          · split at hnf
            · rw [bind_of_ok (modifyS_run _ _)] at hnf; cases hnf
            · cases hnf; simp
    · rw [bind_of_ok hnf]
      have hs4 : s4.ga = s3.ga := by
        rcases (newFitness_ok hnf).2 with ⟨_, _, e, _⟩ | ⟨_, _, cs, _, _, ⟨_, _, _, e⟩ | ⟨_, _, _, _, e⟩⟩ <;> rw [e]
      rcases checkMutation_cases mutOp c.mutationLvl with ⟨hlv, l, hcm⟩ | ⟨e, he, hcm⟩
      · have h5 : newMutation mutOp c.mutationLvl s4 = (.ok (), { s4 with mutLvl := l.stored s4.ga.attrs.arith }) := by
          unfold newMutation; rw [hcm]; rfl
        rw [bind_of_ok h5]
        cases htr : checkTransfer c.transfer with
        | error e =>
          refine ⟨e, ?_, by rw [bind_of_err (show (liftE (Except.error e) : M σ Transfer) _ = (.error e, _) from rfl)]⟩
          unfold checkTransfer at htr
          split at htr
          · cases htr
          · split at htr
            · cases htr
            · injection htr with htr; rw [← htr]; simp
        | ok tr =>
          rw [bind_of_ok (show (liftE (Except.ok tr) : M σ Transfer) _ = (.ok tr, _) from rfl)]
          have hbad : ∃ gray gens, spec = .binary gray gens ∧
              ((∃ g ∈ gens, Degenerate g ∧ (c.arith = .exact ∨ g.step = 0)) ∨ ∃ x ∈ c.input.getD [], ¬ List.Forall₂ InGene gens x) := by
            cases h with
            | room h => exact absurd h hl
            | conditions cs h1 h2 h3 h4 h5 =>
              exfalso
              rcases (newFitness_ok hnf).2 with ⟨_, _, _, e⟩ | ⟨_, _, cs', k1, _, ⟨k2, _⟩ | ⟨_, k2, _⟩⟩
              · rcases e with e | e
                · rw [hp] at e; exact h1 e
                · rw [show s3.conds = some cs from h2] at e
                  simp at e; omega
              · rw [h5] at k2; cases k2
              · rw [show s3.conds = some cs from h2] at k1
                injection k1 with k1
                subst k1; exact h4 k2
            | level h => exact absurd hlv h
            | transfer h1 h2 =>
              unfold checkTransfer at htr
              rw [if_neg h1, if_neg h2] at htr; cases htr
            | gene gray gens h1 g h2 h3 h4 => exact ⟨gray, gens, h1, .inl ⟨g, h2, h3, h4⟩⟩
            | input gray gens h1 x h2 h3 => exact ⟨gray, gens, h1, .inr ⟨x, h2, h3⟩⟩
          obtain ⟨gray, gens, hsp, hb⟩ := hbad
          obtain ⟨e, he, h6⟩ := fill_reports (σ := σ) (s := { s4 with mutLvl := l.stored s4.ga.attrs.arith }) (gray := gray) (gens := gens)
            (by show s4.ga.attrs.spec = _; rw [hs4]; exact hsp)
            (by rw [show s4.ga.attrs.arith = c.arith by rw [hs4]]; exact hb)
          refine ⟨e, he, ?_⟩
          rw [bind_run]
          rcases hfl : fill c.input { s4 with mutLvl := l.stored s4.ga.attrs.arith } with ⟨_ | _, s7⟩
          · rw [hfl] at h6; injection h6 with h6; rw [← h6]
          · rw [hfl] at h6; cases h6
      · refine ⟨e, he, ?_⟩
        rw [bind_of_err (s' := s4) (e := e)]
        unfold newMutation; rw [hcm]; rfl

/-- The preparation makes no calls of the objective, also if it fails. -/
theorem startUp_quiet (c : Cfg) (spec : PopSpec) (task : Task σ) (mutOp : MutOp) :
    Keeps (SameCalls (σ := σ)) (startUp c spec task mutOp) := by
  have hR := sameCalls_quiet (σ := σ)
  have hmod : ∀ f : St σ → St σ, (∀ s, (f s).calls = s.calls) → Keeps (SameCalls (σ := σ)) (modifyS f) := fun f h s => h s
  have hnf : Keeps (SameCalls (σ := σ)) (newFitness task) := by
    refine hR.bind hR.getS fun s => ?_
    cases task.penalty with
    | none => exact hR.pure _
    | some _ =>
      refine Keeps.ite (hR.pure _) (Keeps.ite (hR.pure _) (Keeps.ite (hR.bind (hmod _ fun _ => rfl) fun _ => hR.pure _) (hR.throwE _)))
  exact hR.bind (hmod _ fun _ => rfl) fun _ => hR.bind (newPopulation_frame hR.still.calm) fun _ => hR.bind (setParams_frame hR.still.moving _ _ _) fun _ =>
    hR.bind hnf fun _ => hR.bind (newMutation_frame hR.still.calm _ _) fun _ => hR.bind (hR.liftE _) fun _ =>
    hR.bind (fill_frame hR.still _) fun _ => hR.pure _

/-! ## How often the objective is called, also in runs that fail -/

/-- Whatever happens, at most `n` calls of the objective. -/
def Costs {α : Type} (n : Nat) (m : M σ α) : Prop := ∀ s, (m s).2.calls.length ≤ s.calls.length + n

theorem Costs.quiet {α : Type} {m : M σ α} (h : Keeps (SameCalls (σ := σ)) m) : Costs 0 m :=
  fun s => by rw [show (m s).2.calls = s.calls from h s]; omega

theorem Costs.bind {α β : Type} {a b : Nat} {m : M σ α} {f : α → M σ β} (hm : Costs a m) (hf : ∀ x, Costs b (f x)) :
    Costs (a + b) (m >>= f) := by
  intro s
  have h1 := hm s
  rw [bind_run]
  rcases h : m s with ⟨e | x, s1⟩ <;> rw [h] at h1
  · simp only at h1 ⊢; omega
  · have h2 := hf x s1
    simp only at h1 h2 ⊢; omega

theorem Costs.mono {α : Type} {a b : Nat} {m : M σ α} (h : Costs a m) (hab : a ≤ b) : Costs b m := fun s => by
  have := h s; omega

theorem Costs.forEach {α : Type} {k : Nat} {f : α → M σ Unit} (h : ∀ x, Costs k (f x)) :
    ∀ l : List α, Costs (l.length * k) (forEach l f) := by
  intro l
  induction l with
  | nil => intro s; exact Nat.le_add_right _ _
  | cons x l ih =>
    rw [List.length_cons, Nat.succ_mul, Nat.add_comm]
    exact Costs.bind (h x) fun _ => ih

theorem callObj_costs (f : List Val → Except PyErr Ret) (g : List Val) : Costs 1 (callObj f g : M σ Ret) := by
  refine Costs.bind (a := 1) (b := 0) (fun s => ?_) fun _ => Costs.quiet (sameCalls_quiet.liftE _)
  rw [modifyS_run]; simp

theorem evalInd_costs (fit : Fit σ) (r : Nat) : Costs 1 (evalInd fit r) := by
  have hR := sameCalls_quiet (σ := σ)
  have hfe : ∀ (cs : List Cond) (vs : List ℚ), Keeps (SameCalls (σ := σ)) (feasLoop r cs vs) := by
    intro cs
    induction cs with
    | nil => intro vs; cases vs with
      | nil => exact hR.pure _
      | cons _ _ => exact hR.throwE _
    | cons c cs ih => intro vs; cases vs with
      | nil => exact hR.pure _
      | cons v vs => exact hR.bind (Keeps.ite (hR.pure _) (hR.modInd _ _)) fun _ => ih _
  have hv : ∀ v, Keeps (SameCalls (σ := σ)) (evalValues fit r v) := by
    intro v
    unfold evalValues
    refine Keeps.ite ?_ (hR.bind (hR.modInd _ _) fun _ => hR.pure _)
    split
    · unfold evalCond
      refine hR.bind (hR.liftE _) fun _ => hR.bind (hR.modInd _ _) fun _ => hR.bind (hfe _ _) fun _ => hR.bind hR.getS fun s => ?_
      cases fit.task.penalty with
      | none => exact hR.throwE _
      | some p => exact hR.liftE _
    · exact hR.throwE _
  unfold evalInd
  refine (Costs.bind (a := 0) (b := 1) (Costs.quiet (hR.getInd r)) fun ind => ?_)
  cases ind.score with
  | some _ => exact (Costs.quiet (hR.pure _)).mono (by omega)
  | none =>
    refine Costs.bind (a := 0) (b := 1) (Costs.quiet (hR.genoOf r)) fun g => Costs.bind (a := 1) (b := 0) ?_ fun v => ?_
    · exact Costs.bind (a := 1) (b := 0) (callObj_costs _ _) fun _ => Costs.quiet (hR.liftE _)
    · exact Costs.quiet (hR.bind (hv v) fun _ => hR.bind (hR.getInd _) fun _ => hR.bind (hR.liftE _) fun _ => hR.modInd _ _)

/-- An evaluation of the population calls the objective at most once for each member, also if it fails half-way. -/
theorem baseFitness_costs (fit : Fit σ) (s : St σ) :
    (baseFitnessExec fit s).2.calls.length ≤ s.calls.length + s.ga.population.length := by
  have hR := sameCalls_quiet (σ := σ)
  unfold baseFitnessExec
  rw [bind_of_ok (getGa_run s)]
  have h1 : Costs s.ga.population.length (forEach s.ga.population (evalInd fit)) := by
    simpa using Costs.forEach (evalInd_costs fit) s.ga.population
  split
  · exact (Costs.bind (a := 0) (Costs.quiet (getPhenotype_frame hR.still)) fun _ =>
      Costs.bind (a := 0) (Costs.quiet (swapPop_frame hR.still)) fun _ =>
      Costs.bind (b := 0) h1 fun _ => Costs.quiet (swapPop_frame hR.still)).mono (by omega) s
  · exact h1 s

end

/-- C75 for `BinaryGA`, `CombinatoryGA`, `CategoricalGA`: a mistake raises an exception before the objective is called
for the first time. -/
theorem C75_single (f : SingleFacade) (c : Cfg) (ov : Option ℚ) (s : St ℚ)
    (h : Mistake c f.spec f.mutOp false s.conds) :
    ∃ e s', e ≠ .exhausted ∧ f.optimize c ov s = (.error e, s') ∧ s'.calls = s.calls := by
  obtain ⟨e, he, h1⟩ := startUp_mistake (task := hyperbolaTask c.obj1 c.obj2 c.inputTruthy c.penalty ov c.arith) rfl h
  have h2 : startUp c f.spec (hyperbolaTask c.obj1 c.obj2 c.inputTruthy c.penalty ov c.arith) f.mutOp s = (.error e, _) :=
    Prod.ext h1 rfl
  refine ⟨e, _, he, ?_, startUp_quiet c f.spec (hyperbolaTask c.obj1 c.obj2 c.inputTruthy c.penalty ov c.arith) f.mutOp s⟩
  rw [f.optimize_eq]
  exact bind_of_err h2

/-- C75 for `FFGA`. -/
theorem C75_ffga (c : Cfg) (gray : Bool) (gens : List BinGene) (s : St ℚ)
    (h : Mistake c (.binary gray gens) .binString true s.conds) :
    ∃ e s', e ≠ .exhausted ∧ ffga c gray gens s = (.error e, s') ∧ s'.calls = s.calls := by
  obtain ⟨e, he, h1⟩ := startUp_mistake (task := ffgaTask c.obj1 c.obj2 c.inputTruthy c.penalty c.arith) rfl h
  have h2 : startUp c (.binary gray gens) (ffgaTask c.obj1 c.obj2 c.inputTruthy c.penalty c.arith) .binString s = (.error e, _) :=
    Prod.ext h1 rfl
  refine ⟨e, _, he, ?_, startUp_quiet c (.binary gray gens) (ffgaTask c.obj1 c.obj2 c.inputTruthy c.penalty c.arith) .binString s⟩
  rw [ffga, facade_eq]
  exact bind_of_err h2

/-- C75 for `VEGA` with conditions. -/
theorem C75_vega (c : Cfg) (gray : Bool) (gens : List BinGene) (ov : Option (List ℚ)) (s : St (List ℚ)) {cs : List Cond}
    (hcs : s.conds = some cs) (h : Mistake c (.binary gray gens) .binString true s.conds) :
    ∃ e s', e ≠ .exhausted ∧ vega c gray gens ov s = (.error e, s') ∧ s'.calls = s.calls := by
  obtain ⟨e, he, h1⟩ := startUp_mistake (task := vegaTask c.obj1 c.obj2 c.inputTruthy c.penalty ov c.arith) rfl h
  have h2 : startUp c (.binary gray gens) (vegaTask c.obj1 c.obj2 c.inputTruthy c.penalty ov c.arith) .binString s = (.error e, _) :=
    Prod.ext h1 rfl
  refine ⟨e, _, he, ?_, startUp_quiet c (.binary gray gens) (vegaTask c.obj1 c.obj2 c.inputTruthy c.penalty ov c.arith) .binString s⟩
  have h3 : vegaNumObjectives c gens.length s = (.ok (cs.count .optimize), s) := by
    unfold vegaNumObjectives
    rw [bind_of_ok (getS_run s), hcs]; rfl
  rw [vega, bind_of_ok h3, facade_eq]
  exact bind_of_err h2

/-- C75 for `VEGA` without conditions: the one call that is made is the probe at the origin. -/
theorem C75_vega_probe (c : Cfg) (gray : Bool) (gens : List BinGene) (ov : Option (List ℚ)) (s : St (List ℚ))
    (hcs : s.conds = none) (h : Mistake c (.binary gray gens) .binString true s.conds) :
    ∃ e s', vega c gray gens ov s = (.error e, s') ∧ s'.calls = s.calls ++ [List.replicate gens.length (.num 0)] := by
  have hprobe : (vegaNumObjectives c gens.length s).2 = { s with calls := s.calls ++ [List.replicate gens.length (.num 0)] } := by
    generalize hT : { s with calls := s.calls ++ [List.replicate gens.length (Val.num 0)] } = T
    unfold vegaNumObjectives
    rw [bind_of_ok (getS_run s)]
    simp only [hcs, callObj]
    rw [bind_run, bind_of_ok (modifyS_run _ _), ← hT]
    cases c.obj1 (List.replicate gens.length (.num 0)) with
    | error e => rfl
    | ok v => cases v <;> rfl
  rcases hn : vegaNumObjectives c gens.length s with ⟨e | m, s1⟩
  · rw [hn] at hprobe
    change s1 = _ at hprobe
    refine ⟨e, s1, ?_, ?_⟩
    · rw [vega]; exact bind_of_err hn
    · rw [hprobe]
  · rw [hn] at hprobe
    change s1 = _ at hprobe
    obtain ⟨e, he, h1⟩ := startUp_mistake (s := s1) (task := vegaTask c.obj1 c.obj2 c.inputTruthy c.penalty ov c.arith) rfl (by rw [hprobe]; exact h)
    have h2 : startUp c (.binary gray gens) (vegaTask c.obj1 c.obj2 c.inputTruthy c.penalty ov c.arith) .binString s1 = (.error e, _) :=
      Prod.ext h1 rfl
    refine ⟨e, _, ?_, (startUp_quiet c (.binary gray gens) (vegaTask c.obj1 c.obj2 c.inputTruthy c.penalty ov c.arith) .binString s1).trans (by rw [hprobe])⟩
    rw [vega, bind_of_ok hn, facade_eq]
    exact bind_of_err h2

/-! ## The tournament size -/

/-- A tournament size which the selection does not accept. -/
def BadSize (c : Cfg) : Prop := c.tournamentSize < 2 ∨ (c.numIndivid : Int) ≤ c.tournamentSize

/-- C75, as far as it is true of the tournament size: with at least two generations a run with a bad size never returns,
and at most the first generation is evaluated. -/
theorem C75_tournament_partial (f : SingleFacade) (c : Cfg) (ov : Option ℚ) (s : St ℚ) (h : BadSize c) :
    (2 ≤ c.numGenerations → ∀ s', f.optimize c ov s ≠ (.ok (), s')) ∧
    (f.optimize c ov s).2.calls.length ≤ s.calls.length + c.numIndivid := by
  have hR := sameCalls_quiet (σ := ℚ)
  rw [f.optimize_eq]
  rcases h1 : startUp c f.spec (hyperbolaTask c.obj1 c.obj2 c.inputTruthy c.penalty ov c.arith) f.mutOp s with ⟨e | p, s0⟩
  · rw [bind_of_err h1]
    have := startUp_quiet c f.spec (hyperbolaTask c.obj1 c.obj2 c.inputTruthy c.penalty ov c.arith) f.mutOp s
    rw [h1] at this
    refine ⟨fun _ s' h => by (cases h), ?_⟩
    rw [show s0.calls = s.calls from this]; omega
  · rw [bind_of_ok h1]
    obtain ⟨sa, sb, _, _, _, _, _, _, a7⟩ := startUp_ok h1
    have hc0 := startUp_calls h1
    obtain ⟨hl, hnum, _⟩ := a7.cells
    have hcost := baseFitness_costs p.1 s0
    rw [hl, hc0] at hcost
    unfold evolve
    rcases h2 : baseFitnessExec p.1 s0 with ⟨e | u, s1⟩
    · have e2 : ((f.ops c p).fitness >>= fun _ => (f.ops c p).update >>= fun _ => getGa >>= fun ga => mainLoop (f.ops c p) (ga.numGenerations - 1)) s0 = (.error e, s1) := bind_of_err h2
      rw [bind_of_err e2]
      refine ⟨fun _ s' h => by (cases h), ?_⟩
      rw [h2] at hcost; exact hcost
    · rw [h2] at hcost
      rcases h3 : (gaUpdate : M ℚ Unit) s1 with ⟨e | u', s2⟩
      · have e2 : ((f.ops c p).fitness >>= fun _ => (f.ops c p).update >>= fun _ => getGa >>= fun ga => mainLoop (f.ops c p) (ga.numGenerations - 1)) s0 = (.error e, s2) := by
          rw [bind_of_ok (m := (f.ops c p).fitness) h2]; exact bind_of_err h3
        rw [bind_of_err e2]
        refine ⟨fun _ s' h => by (cases h), ?_⟩
        have : s2.calls = s1.calls := by have := gaUpdate_frame hR s1; rw [h3] at this; exact this
        rw [show ((Except.error e : Except PyErr Unit), s2).2.calls = s1.calls from this]; exact hcost
      · have hcalls : s2.calls = s1.calls := (gaUpdate_frame hR).ok h3
        obtain ⟨hk, _, _, hat, _⟩ := first_inv (singleOps_run p.1 (.tournament c.tournamentSize) f.cross f.mutOp p.2).fitness a7.fresh h2 h3
        have hgen : s2.ga.numGenerations = c.numGenerations := by
          obtain ⟨⟨p1, _, _⟩, _⟩ := (After.first (ops := f.ops c p) h2 h3).keeps sameSetup_frame (singleOps_keep _ _ _ _ _)
          exact p1.trans a7.gens
        have e2 : ((f.ops c p).fitness >>= fun _ => (f.ops c p).update >>= fun _ => getGa >>= fun ga => mainLoop (f.ops c p) (ga.numGenerations - 1)) s0 =
            mainLoop (f.ops c p) (c.numGenerations - 1) s2 := by
          rw [bind_of_ok (m := (f.ops c p).fitness) h2, bind_of_ok (m := (f.ops c p).update) h3, bind_of_ok (getGa_run s2), hgen]
        by_cases hN : 2 ≤ c.numGenerations
        · have hsel : tournamentExec c.tournamentSize s2 = (.error .exception, s2) := by
            refine C26_size_rejected ?_
            rw [hat]
            show c.tournamentSize < 2 ∨ (s0.ga.attrs.numIndivid : Int) ≤ c.tournamentSize
            rw [hnum]; exact h
          have hml : mainLoop (f.ops c p) (c.numGenerations - 1) s2 = (.error .exception, s2) := by
            obtain ⟨n, hn⟩ : ∃ n, c.numGenerations - 1 = n + 1 := ⟨c.numGenerations - 2, by omega⟩
            rw [hn, mainLoop]
            exact bind_of_err (bind_of_err hsel)
          rw [hml] at e2
          rw [bind_of_err e2]
          exact ⟨fun _ s' h => by (cases h), by rw [show ((Except.error PyErr.exception : Except PyErr Unit), s2).2.calls = s1.calls from hcalls]; exact hcost⟩
        · refine ⟨fun h => absurd h hN, ?_⟩
          have hml : mainLoop (f.ops c p) (c.numGenerations - 1) s2 = (.ok (), s2) := by
            rw [show c.numGenerations - 1 = 0 by omega, mainLoop]; rfl
          rw [hml] at e2
          rw [bind_of_ok e2]
          have hpr : ((if c.isPrint then printBest else pure () : M ℚ Unit) s2).2.calls = s2.calls := by
            have : Keeps (SameCalls (σ := ℚ)) (if c.isPrint then printBest else pure () : M ℚ Unit) := by
              refine Keeps.ite ?_ (hR.pure _)
              refine hR.bind hR.getS fun ga => ?_
              split
              · exact hR.throwE _
              · exact hR.pure _
              · exact hR.throwE _
              · exact Keeps.ite (hR.pure _) (hR.throwE _)
            exact this s2
          rw [hpr, hcalls]; exact hcost

set_option maxRecDepth 100000 in
/-- The run of `exRun` with a tournament of one: all four members of the first generation are evaluated before the size
is rejected; with one generation it is never looked at. -/
theorem exBadSize : (exFacade.optimize { exCfg with tournamentSize := 1 } none { tape := exTape }).1 = .error .exception ∧
    (exFacade.optimize { exCfg with tournamentSize := 1 } none { tape := exTape }).2.calls.length = 4 ∧
    (exFacade.optimize { exCfg with tournamentSize := 1, numGenerations := 1 } none { tape := exTape }).1 = .ok () := by
  decide +kernel

/-- C75 fails for the tournament size: it is looked at only after the first generation has been evaluated. -/
theorem C75_tournament_refuted : ¬ ∀ (f : SingleFacade) (c : Cfg) (ov : Option ℚ) (s : St ℚ), BadSize c →
    ∃ e s', f.optimize c ov s = (.error e, s') ∧ s'.calls = s.calls := by
  intro h
  obtain ⟨e, s', h1, h2⟩ := h exFacade { exCfg with tournamentSize := 1 } none { tape := exTape } (.inl (by decide))
  have h3 := exBadSize.2.1
  rw [h1] at h3
  rw [h2] at h3
  cases h3

/-! ## Concrete mistakes -/

/-- Without the mistake the run succeeds (`exRun_ok`). -/
example : ∃ e s', e ≠ .exhausted ∧ exFacade.optimize { exCfg with transfer := "elite" } none { tape := exTape } = (.error e, s') ∧
    s'.calls = [] :=
  C75_single _ _ _ _ (.transfer (by decide) (by decide))

example : ∃ e s', e ≠ .exhausted ∧ exFacade.optimize { exCfg with mutationLvl := .float 2 } none { tape := exTape } = (.error e, s') ∧
    s'.calls = [] := by
  refine C75_single _ _ _ _ (.level ?_)
  rintro (⟨q, h, _, h2⟩ | ⟨h, _⟩)
  · injection h with h; rw [← h] at h2; norm_num at h2
  · exact h rfl

/-- A passed individual with a gene just outside its box. -/
example : ∃ e s', e ≠ .exhausted ∧ binaryGA { exCfg with input := some [[.num 1], [.num (7 / 2)]] } false [⟨0, 3, 1⟩] none { tape := exTape } = (.error e, s') ∧
    s'.calls = [] := by
  refine C75_single (.binary false [⟨0, 3, 1⟩]) _ none _ (.input false [⟨0, 3, 1⟩] rfl [.num (7 / 2)] (by simp) ?_)
  intro h
  cases h with
  | cons h _ =>
    obtain ⟨q, h1, _, h2⟩ := h
    injection h1 with h1
    rw [← h1] at h2
    norm_num at h2

example : ∃ e s', e ≠ .exhausted ∧ vega { exCfg with transfer := "all" } true [⟨0, 3, 1⟩] none { tape := exTape, conds := some [.optimize, .optimize] } = (.error e, s') ∧
    s'.calls = [] :=
  C75_vega _ _ _ _ _ rfl (.transfer (by decide) (by decide))

end BaumEva
