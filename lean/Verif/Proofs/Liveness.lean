import Verif.Proofs.Tame
import Verif.Props.Chances
import Verif.Props.NoCrash
/-!
# Runs that can be completed
-/
namespace BaumEva
open BaumEva.Spec
variable {σ α β : Type}

/-! ## unused draws -/

theorem ExtOk.bind {m : M σ α} {f : α → M σ β} (hm : ExtOk m) (hf : ∀ a, ExtOk (f a)) : ExtOk (m >>= f) := by
  intro s s' b u hn h
  obtain ⟨a, s1, h1, h2⟩ := bind_ok.mp h
  obtain ⟨e1, n1⟩ := hm s s1 a u hn h1
  obtain ⟨e2, n2⟩ := hf a s1 s' b u n1 h2
  exact ⟨by rw [bind_of_ok e1]; exact e2, n2⟩

theorem ExtOk.forEach {f : α → M σ Unit} (h : ∀ a, ExtOk (f a)) : ∀ l : List α, ExtOk (BaumEva.forEach l f) := by
  intro l
  induction l with
  | nil => exact (Tame.pure ()).ext
  | cons x xs ih => exact ExtOk.bind (h x) fun _ => ih

/-! ## possible successes -/

/-- Some further draws lead to a success. -/
def Poss (m : M σ α) (s : St σ) : Prop := ∃ u a s', m (s.more u) = (.ok a, s')

theorem Poss.of_ok {m : M σ α} {s s' : St σ} {a : α} (h : m s = (.ok a, s')) : Poss m s :=
  ⟨[], a, s', by rw [St.more_nil]; exact h⟩

theorem Poss.bind {m : M σ α} {f : α → M σ β} {s : St σ} (hn : s.seed = none) (hx : ExtOk m) (hm : Poss m s)
    (hf : ∀ u a s', m (s.more u) = (.ok a, s') → Poss (f a) s') : Poss (m >>= f) s := by
  obtain ⟨u, a, s1, h1⟩ := hm
  obtain ⟨w, b, s2, h2⟩ := hf u a s1 h1
  obtain ⟨e, _⟩ := hx _ s1 a w (by exact hn) h1
  rw [St.more_more] at e
  exact ⟨u ++ w, b, s2, by rw [bind_of_ok e]; exact h2⟩

theorem Poss.of_tame {m : M σ α} {s : St σ} (hn : s.seed = none) (ht : Tame m) (hs : ∀ u, Safe m (s.more u)) : Poss m s := by
  obtain ⟨k, hk⟩ := ht.halts s hn
  rcases hx : m (s.more (List.replicate k 0)) with ⟨r, s'⟩
  cases r with
  | ok a => exact ⟨_, a, s', hx⟩
  | error e =>
    obtain ⟨rfl, h2⟩ := hs _ e s' hx
    rw [hx] at hk
    exact absurd ⟨rfl, h2⟩ hk

/-! ## tournaments -/

namespace Tame

theorem popAt (i : Int) : Tame (BaumEva.popAt i : M σ Nat) := by
  unfold BaumEva.popAt
  refine bind getGa fun _ => ?_
  split
  · exact pure _
  · exact throwE _

theorem getBestLoop {κ : Type} [LinearOrder κ] (key : Ind σ → Except PyErr κ) : ∀ (is : List Nat) (b : Nat),
    Tame (BaumEva.getBestLoop key b is) := by
  intro is
  induction is with
  | nil => intro b; exact pure _
  | cons i is ih =>
    intro b
    rw [BaumEva.getBestLoop]
    exact bind (popAt _) fun _ => bind (getInd _) fun _ => bind (getInd _) fun _ => bind (liftE _) fun _ =>
      bind (liftE _) fun _ => ih _

theorem getBest {κ : Type} [LinearOrder κ] (key : Ind σ → Except PyErr κ) : ∀ is : List Nat, Tame (BaumEva.getBest key is)
  | [] => throwE _
  | _ :: _ => by
    rw [BaumEva.getBest]
    exact bind (popAt _) fun _ => getBestLoop _ _ _

theorem oneTournament {κ : Type} [LinearOrder κ] (key : Ind σ → Except PyErr κ) (size : Int) :
    Tame (BaumEva.oneTournament key size) := by
  unfold BaumEva.oneTournament
  exact bind getGa fun _ => bind (sample _ _) fun _ => getBest _ _

theorem addParent (r : Nat) : Tame (BaumEva.addParent r : M σ Unit) := by
  unfold BaumEva.addParent
  exact bind (getInd _) fun _ => bind (alloc _) fun _ => modGa _

theorem baseSelection : Tame (BaumEva.baseSelection : M σ Unit) := by
  unfold BaumEva.baseSelection
  exact bind resetIdx fun _ => bind newPopulation fun _ => modGa _

theorem checkTournament (size : Int) : Tame (BaumEva.checkTournament size : M σ Unit) := by
  unfold BaumEva.checkTournament
  exact bind getGa fun _ => ite (throwE _) (pure _)

end Tame

section
variable {κ : Type} [LinearOrder κ] {key : Ind σ → Except PyErr κ}

theorem secondParent_ext (size : Int) (first : Nat) : ∀ f : Nat, ExtOk (secondParent key size first f) := by
  intro f
  induction f with
  | zero => exact (Tame.throwE _).ext
  | succ f ih =>
    rw [secondParent]
    refine ExtOk.bind (Tame.oneTournament _ _).ext fun _ => ExtOk.bind (Tame.getInd _).ext fun _ =>
      ExtOk.bind (Tame.getInd _).ext fun _ => ?_
    split
    · exact (Tame.pure _).ext
    · exact ih

theorem secondParent_mono {size : Int} {first : Nat} : ∀ {f g : Nat} {s s' : St σ} {r : Nat}, f ≤ g →
    secondParent key size first f s = (.ok r, s') → secondParent key size first g s = (.ok r, s') := by
  intro f
  induction f with
  | zero => intro g s s' r _ h; rw [secondParent, throwE_ok] at h; exact h.elim
  | succ f ih =>
    intro g s s' r hg h
    obtain ⟨g, rfl⟩ : ∃ k, g = k + 1 := ⟨g - 1, by omega⟩
    rw [secondParent] at h ⊢
    obtain ⟨b, s1, h1, h2⟩ := bind_ok.mp h
    rw [bind_of_ok h1]
    rw [bind_of_ok (getInd_run _ _), bind_of_ok (getInd_run _ _)] at h2 ⊢
    split at h2
    · rename_i hc; rw [if_pos hc]; exact h2
    · rename_i hc; rw [if_neg hc]; exact ih (by omega) h2

theorem tournamentPair_ext (size : Int) : ExtOk (tournamentPair key size) := by
  intro s s' x u hn h
  unfold tournamentPair at h ⊢
  obtain ⟨a, s1, h1, h2⟩ := bind_ok.mp h
  obtain ⟨e1, n1⟩ := (Tame.oneTournament key size).ext s s1 a u hn h1
  rw [bind_of_ok e1, bind_of_ok (getS_run _)]
  rw [bind_of_ok (getS_run _)] at h2
  obtain ⟨b, s2, h3, h4⟩ := bind_ok.mp h2
  obtain ⟨e2, n2⟩ := secondParent_ext size a _ s1 s2 b u n1 h3
  rw [bind_of_ok (secondParent_mono (by simp) e2)]
  exact ((Tame.addParent a).bind fun _ => Tame.addParent b).ext s2 s' x u n2 h4

theorem tournament_ext (size : Int) (m : Nat) : ExtOk (tournament key size m) := by
  unfold tournament
  exact ExtOk.bind Tame.getGa.ext fun _ => ExtOk.forEach (fun _ => tournamentPair_ext size) _

theorem tournamentExec_ext [LinearOrder σ] (size : Int) : ExtOk (tournamentExec size : M σ Unit) := by
  unfold tournamentExec
  exact ExtOk.bind (Tame.checkTournament _).ext fun _ => ExtOk.bind Tame.baseSelection.ext fun _ => tournament_ext _ _

/-- A tournament that has enough draws uses exactly `size` of them. -/
theorem oneTournament_run {size : Int} {s : St σ} (h1 : 1 ≤ size) (h2 : size ≤ s.ga.population.length)
    (hk : Keyed key s) (hl : size.toNat ≤ s.tape.length) :
    ∃ r t, oneTournament key size s = (.ok r, { s with tape := t }) ∧ t.length + size.toNat = s.tape.length := by
  have hsafe := oneTournament_safe h1 h2 hk
  rcases hx : oneTournament key size s with ⟨o, s'⟩
  cases o with
  | ok r =>
    obtain ⟨⟨t, rfl⟩, _⟩ := oneTournament_ok hx
    refine ⟨r, t, rfl, ?_⟩
    unfold oneTournament at hx
    rw [bind_of_ok (getGa_run s)] at hx
    obtain ⟨l, s1, e1, e2⟩ := bind_ok.mp hx
    obtain ⟨rfl, _⟩ := getBest_ok e2
    unfold sample at e1
    split at e1
    · rw [throwE_ok] at e1; exact e1.elim
    · have := sampleAux_tape e1
      simp only at this
      omega
  | error e =>
    exfalso
    unfold oneTournament at hx
    rw [bind_of_ok (getGa_run s)] at hx
    rcases hy : sample (List.range s.ga.population.length) size s with ⟨o, s1⟩
    cases o with
    | error e' =>
      have aux : ∀ (k : Nat) (l : List Nat) (s : St σ), k ≤ l.length → k ≤ s.tape.length →
          ∃ r s', sampleAux k l s = (.ok r, s') := by
        intro k
        induction k with
        | zero => intro l s _ _; exact ⟨[], s, rfl⟩
        | succ k ih =>
          intro l s hkl hks
          rw [sampleAux]
          cases ht : s.tape with
          | nil => rw [ht] at hks; simp at hks
          | cons x t =>
            rw [bind_of_ok (draw_ok.mpr ⟨t, ht, rfl⟩)]
            have hlt : x % l.length < l.length := Nat.mod_lt _ (by omega)
            rw [List.getElem?_eq_getElem hlt]
            simp only
            obtain ⟨r, s', e⟩ := ih (l.eraseIdx (x % l.length)) { s with tape := t }
              (by rw [List.length_eraseIdx_of_lt hlt]; omega) (by rw [ht] at hks; simpa using hks)
            rw [bind_of_ok e]
            exact ⟨_, _, rfl⟩
      obtain ⟨r, s2, e2⟩ := aux size.toNat (List.range s.ga.population.length) s (by rw [List.length_range]; omega) hl
      unfold sample at hy
      rw [if_neg (by rw [List.length_range]; omega), e2] at hy
      simp at hy
    | ok l =>
      rw [bind_of_ok hy] at hx
      obtain ⟨_, _, _, hll, ⟨tp, rfl⟩⟩ := sample_ok hy
      obtain ⟨r, e⟩ := getBest_safe (s := { s with tape := tp }) (key := key) (t := l)
        (by rintro rfl; simp at hll; omega) (fun i hi => by simpa using sample_mem hy i hi) hk
      rw [e] at hx
      simp at hx

/-- Two possible winners with different index entries. -/
def TwoWinners (key : Ind σ → Except PyErr κ) (size : Int) (s : St σ) : Prop :=
  ∃ (v : Nat → κ) (a b : Nat), (∀ r ∈ s.ga.population, key (s.heap r) = .ok (v r)) ∧
    a ∈ s.ga.population ∧ (size ≤ s.ga.population.countP fun p => v p ≤ v a) ∧
    b ∈ s.ga.population ∧ (size ≤ s.ga.population.countP fun p => v p ≤ v b) ∧ (s.heap a).idx ≠ (s.heap b).idx

theorem secondParent_hit {size : Int} {first f r : Nat} {s s' : St σ} (e : oneTournament key size s = (.ok r, s'))
    (hd : (s'.heap r).idx ≠ (s'.heap first).idx) : secondParent key size first (f + 1) s = (.ok r, s') := by
  rw [secondParent, bind_of_ok e, bind_of_ok (getInd_run _ _), bind_of_ok (getInd_run _ _), if_pos hd]
  rfl

theorem secondParent_miss {size : Int} {first f r : Nat} {s s' : St σ} (e : oneTournament key size s = (.ok r, s'))
    (hd : ¬ (s'.heap r).idx ≠ (s'.heap first).idx) : secondParent key size first (f + 1) s = secondParent key size first f s' := by
  rw [secondParent, bind_of_ok e, bind_of_ok (getInd_run _ _), bind_of_ok (getInd_run _ _), if_neg hd]

theorem secondParent_poss {size : Int} (h1 : 1 ≤ size) {first : Nat} : ∀ (n : Nat) {s : St σ}, s.tape.length = n → s.seed = none →
    size ≤ s.ga.population.length → TwoWinners key size s →
    ∃ u r s', ∀ f, s.tape.length + u.length < f → secondParent key size first f (s.more u) = (.ok r, s') := by
  intro n
  induction n using Nat.strong_induction_on with
  | _ n ih =>
    intro s hn hseed h2 hw
    obtain ⟨v, a, b, hv, ha, hca, hb, hcb, hne⟩ := hw
    have hkey : Keyed key s := fun r hr => ⟨v r, hv r hr⟩
    -- with no draws left
    have base : ∀ s0 : St σ, s0 = { s with tape := [] } →
        ∃ u r s', ∀ f, u.length < f → secondParent key size first f (s0.more u) = (.ok r, s') := by
      intro s0 hs0
      obtain ⟨c, hc, hcc, hcn⟩ : ∃ c ∈ s.ga.population, (size ≤ s.ga.population.countP fun p => v p ≤ v c) ∧
          (s.heap c).idx ≠ (s.heap first).idx := by
        by_cases h : (s.heap a).idx = (s.heap first).idx
        · exact ⟨b, hb, hcb, fun e => hne (h.trans e.symm)⟩
        · exact ⟨a, ha, hca, h⟩
      obtain ⟨t, e⟩ := oneTournament_gives hv h1 hc hcc
      refine ⟨t, c, { s with tape := [] }, ?_⟩
      intro f hf
      obtain ⟨f, rfl⟩ : ∃ k, f = k + 1 := ⟨f - 1, by omega⟩
      have e' := e []
      rw [List.append_nil] at e'
      have hs : s0.more t = { s with tape := t } := by rw [hs0]; simp [St.more]
      rw [hs]; exact secondParent_hit e' hcn
    by_cases hsz : size.toNat ≤ s.tape.length
    · obtain ⟨r, t, e, hl⟩ := oneTournament_run h1 h2 hkey hsz
      by_cases hd : (s.heap r).idx ≠ (s.heap first).idx
      · refine ⟨[], r, { s with tape := t }, ?_⟩
        intro f hf
        obtain ⟨f, rfl⟩ : ∃ k, f = k + 1 := ⟨f - 1, by omega⟩
        rw [St.more_nil]; exact secondParent_hit e hd
      · obtain ⟨u, r2, s2, h⟩ := ih t.length (by omega) (s := { s with tape := t }) rfl hseed h2
          ⟨v, a, b, hv, ha, hca, hb, hcb, hne⟩
        refine ⟨u, r2, s2, ?_⟩
        intro f hf
        obtain ⟨f, rfl⟩ : ∃ k, f = k + 1 := ⟨f - 1, by omega⟩
        obtain ⟨e2, _⟩ := (Tame.oneTournament key size).ext s _ r u hseed e
        rw [secondParent_miss e2 hd]
        exact h f (by simp only; omega)
    · set z := List.replicate (size.toNat - s.tape.length) 0 with hz
      obtain ⟨r, t, e, hl⟩ := oneTournament_run (s := s.more z) h1 h2 hkey (by simp [hz]; omega)
      have ht : t = [] := by
        rw [← List.length_eq_zero_iff]
        simp [hz] at hl
        omega
      subst ht
      by_cases hd : (s.heap r).idx ≠ (s.heap first).idx
      · refine ⟨z, r, { s.more z with tape := [] }, ?_⟩
        intro f hf
        obtain ⟨f, rfl⟩ : ∃ k, f = k + 1 := ⟨f - 1, by omega⟩
        exact secondParent_hit e hd
      · obtain ⟨u, r2, s2, h⟩ := base { s.more z with tape := [] } rfl
        refine ⟨z ++ u, r2, s2, ?_⟩
        intro f hf
        obtain ⟨f, rfl⟩ : ∃ k, f = k + 1 := ⟨f - 1, by omega⟩
        obtain ⟨e2, _⟩ := (Tame.oneTournament key size).ext (s.more z) _ r u hseed e
        rw [St.more_more] at e2
        rw [secondParent_miss e2 hd]
        refine h f ?_
        have : 0 < z.length := by simp [hz]; omega
        rw [List.length_append] at hf
        omega

theorem tournamentPair_poss {size : Int} {s : St σ} (h1 : 1 ≤ size) (hseed : s.seed = none)
    (h2 : size ≤ s.ga.population.length) (hw : TwoWinners key size s) : Poss (tournamentPair key size) s := by
  have hkey : Keyed key s := by
    obtain ⟨v, _, _, hv, _⟩ := hw
    exact fun r hr => ⟨v r, hv r hr⟩
  unfold tournamentPair
  refine Poss.bind hseed (Tame.oneTournament key size).ext (Poss.of_tame hseed (Tame.oneTournament key size) fun u =>
    oneTournament_safe (s := s.more u) h1 h2 hkey) ?_
  intro u a s1 e
  obtain ⟨⟨t, rfl⟩, _⟩ := oneTournament_ok e
  obtain ⟨w, r, s2, h⟩ := secondParent_poss (first := a) (s := { s with tape := t }) h1 _ rfl hseed h2 hw
  refine ⟨w, (), ?_⟩
  have e2 := h (t.length + w.length + 1) (Nat.lt_succ_self _)
  obtain ⟨s3, e3⟩ : ∃ s', (do addParent a; addParent r : M σ Unit) s2 = (.ok (), s') := ⟨_, rfl⟩
  refine ⟨s3, ?_⟩
  show (getS >>= _) (St.more { s with tape := t } w) = _
  rw [bind_of_ok (getS_run _)]
  rw [show (St.more { s with tape := t } w).tape.length = t.length + w.length by simp, bind_of_ok e2]
  exact e3

theorem TwoWinners.copied {size : Int} {s s' : St σ} {ps : List Nat} (hal : ∀ r ∈ s.ga.population, r < s.next)
    (hc : Copied s s' ps) (h : TwoWinners key size s) : TwoWinners key size s' := by
  obtain ⟨v, a, b, hv, ha, hca, hb, hcb, hne⟩ := h
  have hp : s'.ga.population = s.ga.population := by rw [hc.ga]
  refine ⟨v, a, b, ?_, ?_, ?_, ?_, ?_, ?_⟩
  · rw [hp]; intro r hr; rw [hc.old r (hal r hr)]; exact hv r hr
  · rw [hp]; exact ha
  · rw [hp]; exact hca
  · rw [hp]; exact hb
  · rw [hp]; exact hcb
  · rw [hc.old a (hal a ha), hc.old b (hal b hb)]; exact hne

theorem tournament_poss {size : Int} {m : Nat} {s : St σ} (h1 : 1 ≤ size) (hseed : s.seed = none)
    (hal : ∀ r ∈ s.ga.population, r < s.next)
    (h2 : size ≤ s.ga.population.length) (hw : TwoWinners key size s) : Poss (tournament key size m) s := by
  unfold tournament
  refine Poss.bind hseed Tame.getGa.ext (Poss.of_ok (getGa_run s)) ?_
  intro u ga s1 e
  have e : s1 = s.more u := ((Prod.mk.inj ((getGa_run _).symm.trans e)).2).symm
  have aux : ∀ (l : List Nat) (s : St σ), s.seed = none → (∀ r ∈ s.ga.population, r < s.next) →
      size ≤ s.ga.population.length → TwoWinners key size s → Poss (forEach l fun _ => tournamentPair key size) s := by
    intro l
    induction l with
    | nil => intro s _ _ _ _; exact Poss.of_ok rfl
    | cons x xs ih =>
      intro s k1 k2 k3 k4
      rw [BaumEva.forEach]
      refine Poss.bind k1 (tournamentPair_ext size) (tournamentPair_poss h1 k1 k3 k4) ?_
      intro u _ s' h
      obtain ⟨_, _, hc, _⟩ := tournamentPair_ok (s := s.more u) k2 h
      have hp : s'.ga.population = s.ga.population := by rw [hc.ga]; rfl
      refine ih s' (hc.seed.trans k1) ?_ (by rw [hp]; exact k3) (TwoWinners.copied (s := s.more u) k2 hc k4)
      intro r hr
      rw [hp] at hr
      have := k2 r hr
      rw [hc.next]
      simp only [St.more_next]; omega
  rw [e]
  exact aux _ (s.more u) hseed hal h2 hw

end

/-! ## two possible winners -/

theorem resetIdxFrom_last : ∀ (l : List Nat) (i : Nat) (s s' : St σ) (u : Unit), resetIdxFrom i l s = (.ok u, s') →
    ∀ r ∈ l, ∃ j, l[j]? = some r ∧ (s'.heap r).idx = some (i + j) := by
  intro l
  induction l with
  | nil => intro i s s' u _ r hr; simp at hr
  | cons x xs ih =>
    intro i s s' u h r hr
    rw [resetIdxFrom] at h
    obtain ⟨_, s1, h1, h2⟩ := bind_ok.mp h
    by_cases hm : r ∈ xs
    · obtain ⟨j, e1, e2⟩ := ih (i + 1) s1 s' u h2 r hm
      exact ⟨j + 1, by simpa using e1, by rw [e2]; congr 1; omega⟩
    · have hx : r = x := by
        rcases List.mem_cons.mp hr with h | h
        · exact h
        · exact absurd h hm
      subst hx
      obtain ⟨s'', g1, _, g3, _⟩ := resetIdxFrom_run xs (i + 1) s1
      rw [h2] at g1
      obtain ⟨_, rfl⟩ := Prod.mk.inj g1
      refine ⟨0, rfl, ?_⟩
      rw [g3 r hm]
      rw [modInd_ok] at h1
      subst h1
      simp [upd]

theorem baseSelection_idx {s s' : St σ} {u : Unit} (h : baseSelection s = (.ok u, s')) {a b : Nat}
    (ha : a ∈ s.ga.population) (hb : b ∈ s.ga.population) (hab : a ≠ b) : (s'.heap a).idx ≠ (s'.heap b).idx := by
  unfold baseSelection at h
  obtain ⟨_, s1, h0, h1⟩ := bind_ok.mp h
  obtain ⟨_, s2, h2, h3⟩ := bind_ok.mp h1
  obtain ⟨t, rfl⟩ := reseed_ok h2
  rw [modGa_ok] at h3
  subst h3
  unfold resetIdx at h0
  rw [bind_of_ok (getGa_run s)] at h0
  obtain ⟨i, i1, i2⟩ := resetIdxFrom_last _ 0 s s1 _ h0 a ha
  obtain ⟨j, j1, j2⟩ := resetIdxFrom_last _ 0 s s1 _ h0 b hb
  show (s1.heap a).idx ≠ (s1.heap b).idx
  rw [i2, j2]
  intro e
  injection e with e
  have : i = j := by omega
  rw [this, j1] at i1
  injection i1 with i1
  exact hab i1.symm

theorem exists_max_on {κ : Type} [LinearOrder κ] (v : Nat → κ) : ∀ {l : List Nat}, l ≠ [] → ∃ a ∈ l, ∀ p ∈ l, v p ≤ v a := by
  intro l
  induction l with
  | nil => intro h; exact absurd rfl h
  | cons x xs ih =>
    intro _
    by_cases h : xs = []
    · subst h; exact ⟨x, by simp, by simp⟩
    · obtain ⟨a, ha, hm⟩ := ih h
      rcases le_total (v x) (v a) with hx | hx
      · exact ⟨a, List.mem_cons_of_mem _ ha, by
          intro p hp
          rcases List.mem_cons.mp hp with rfl | hp
          · exact hx
          · exact hm p hp⟩
      · exact ⟨x, List.mem_cons_self, by
          intro p hp
          rcases List.mem_cons.mp hp with rfl | hp
          · exact le_rfl
          · exact (hm p hp).trans hx⟩

/-- No individual takes up so many places that a tournament could not do without it. -/
def Spread (size : Int) (pop : List Nat) : Prop := ∀ r, size ≤ pop.countP fun p => p ≠ r

theorem spread_winners {κ : Type} [LinearOrder κ] {size : Int} (h1 : 1 ≤ size) {pop : List Nat} (h : Spread size pop) (v : Nat → κ) :
    ∃ a ∈ pop, ∃ b ∈ pop, a ≠ b ∧ (size ≤ pop.countP fun p => v p ≤ v a) ∧ (size ≤ pop.countP fun p => v p ≤ v b) := by
  have hne : pop ≠ [] := by
    intro e
    have := h 0
    rw [e] at this
    simp at this
    omega
  obtain ⟨a, ha, hma⟩ := exists_max_on v hne
  have hr := h a
  have hf : (pop.filter fun p => p ≠ a) ≠ [] := by
    intro e
    rw [List.countP_eq_length_filter, e] at hr
    simp at hr
    omega
  obtain ⟨b, hb, hmb⟩ := exists_max_on v hf
  rw [List.mem_filter] at hb
  refine ⟨a, ha, b, hb.1, ?_, ?_, ?_⟩
  · have := hb.2; simp at this; exact fun e => this e.symm
  · refine hr.trans ?_
    exact_mod_cast List.countP_mono_left fun p hp _ => by simpa using hma p hp
  · refine hr.trans ?_
    exact_mod_cast List.countP_mono_left fun p hp hpa => by
      simpa using hmb p (List.mem_filter.mpr ⟨hp, hpa⟩)

theorem tournamentExec_poss [LinearOrder σ] {size : Int} {s : St σ} (h1 : 2 ≤ size) (h2 : size < s.ga.attrs.numIndivid)
    (hseed : s.seed = none) (hal : ∀ r ∈ s.ga.population, r < s.next) (hk : Keyed scoreKey s)
    (hsp : Spread size s.ga.population) : Poss (tournamentExec size) s := by
  unfold tournamentExec
  have hc : ∀ s : St σ, size < s.ga.attrs.numIndivid → checkTournament size s = (.ok (), s) := by
    intro s h2
    unfold checkTournament
    rw [bind_of_ok (getGa_run s), ite_run, if_neg (by omega)]
    rfl
  refine Poss.bind hseed (Tame.checkTournament size).ext (Poss.of_ok (hc s h2)) ?_
  intro u _ s1 e
  rw [hc (s.more u) h2] at e
  obtain ⟨_, rfl⟩ := Prod.mk.inj e
  obtain ⟨s2, e2⟩ := baseSelection_run (s.more u)
  refine Poss.bind hseed Tame.baseSelection.ext (Poss.of_ok e2) ?_
  intro w _ s3 e3
  obtain ⟨hr, _⟩ := baseSelection_relabelled e3
  have hp : s3.ga.population = s.ga.population := by rw [hr.ga]; rfl
  have hkeq : ∀ r, scoreKey (s3.heap r) = scoreKey (s.heap r) := by
    intro r
    have := hr.core r
    unfold scoreKey
    rw [this.score]; rfl
  have : Nonempty σ := by
    cases hpop : s.ga.population with
    | nil => have := hsp 0; rw [hpop] at this; simp at this; omega
    | cons x xs => exact ⟨(hk x (by rw [hpop]; exact List.mem_cons_self)).choose⟩
  choose! v hv using hk
  obtain ⟨a, ha, b, hb, hab, hca, hcb⟩ := spread_winners (by omega) hsp v
  have hlen : size ≤ s3.ga.population.length := by
    rw [hp]
    exact hca.trans (by exact_mod_cast List.countP_le_length)
  refine tournament_poss (by omega) (hr.seed.trans hseed) (by rw [hp, hr.next]; exact hal) hlen ?_
  refine ⟨v, a, b, ?_, ?_, ?_, ?_, ?_, baseSelection_idx e3 ha hb hab⟩
  · rw [hp]; intro r h; rw [hkeq]; exact hv r h
  · rw [hp]; exact ha
  · rw [hp]; exact hca
  · rw [hp]; exact hb
  · rw [hp]; exact hcb

/-! ## whole runs -/

section
variable {fit : Fit ℚ} {size : Int} {op : CrossOp} {mop : MutOp} {tr : Transfer} {P : List Val → Prop} {s0 : St ℚ}

theorem SafeSetup.more {sel : SelOp} (h : SafeSetup fit sel op mop tr P s0) (u : List Nat) :
    SafeSetup fit sel op mop tr P (s0.more u) :=
  ⟨⟨⟨h.fresh.alive, h.fresh.distinct, h.fresh.unscored, h.fresh.unsorted, h.fresh.best, h.fresh.noImprove, h.fresh.idx,
    h.fresh.histBest, h.fresh.histMed, h.fresh.histWorst, h.fresh.histFronts, h.fresh.snaps⟩, h.closed, h.first, h.full,
    h.two, h.cross, h.mutable, h.ready, h.random, h.decode, h.eval, h.stop⟩, h.sel⟩

/-- The part of a generation after the selection. -/
def breedRest (ops : Ops σ) : M σ Unit := do
  ops.crossover
  ops.mutation
  ops.newGen
  ops.fitness
  ops.update

theorem breedRest_tame (fit : Fit ℚ) (sel : SelOp) (op : CrossOp) (mop : MutOp) (tr : Transfer) :
    Tame (breedRest (singleOps fit sel op mop tr)) :=
  (Tame.crossExec op).bind fun _ => (Tame.mutExec mop).bind fun _ => (Tame.newGenExec tr).bind fun _ =>
    (Tame.baseFitness fit).bind fun _ => Tame.gaUpdate

theorem generation_ext (fit : Fit ℚ) (size : Int) (op : CrossOp) (mop : MutOp) (tr : Transfer) :
    ExtOk (generation (singleOps fit (.tournament size) op mop tr)) :=
  ExtOk.bind (tournamentExec_ext size) fun _ => (breedRest_tame fit (.tournament size) op mop tr).ext

theorem After.more {k : Nat} {s : St ℚ} (hn : s0.seed = none) (h : After (singleOps fit (.tournament size) op mop tr) s0 k s)
    (u : List Nat) : After (singleOps fit (.tournament size) op mop tr) (s0.more u) k (s.more u) ∧ s.seed = none := by
  induction h with
  | @first s1 s a b =>
    obtain ⟨e1, n1⟩ := (Tame.baseFitness fit).ext s0 s1 () u hn a
    obtain ⟨e2, n2⟩ := Tame.gaUpdate.ext s1 s () u n1 b
    exact ⟨After.first e1 e2, n2⟩
  | @next k s s' a b ih =>
    obtain ⟨e2, n2⟩ := generation_ext fit size op mop tr s s' () u ih.2 b
    exact ⟨After.next ih.1 e2, n2⟩

/-- Places not taken by one individual: children are new, and somebody survives. -/
theorem spread_children {children es : List Nat} (hd : children.Nodup) (hdis : ∀ r ∈ children, r ∉ es) (he : es ≠ [])
    (hs : size ≤ children.length) : Spread size (children ++ es) := by
  intro r
  refine hs.trans ?_
  rw [List.countP_append]
  have h1 : children.length ≤ children.countP (fun p => decide (p ≠ r)) + children.count r := by
    rw [List.count, List.length_eq_countP_add_countP (fun p => decide (p ≠ r))]
    have : (children.countP fun a => decide ¬ (decide (a ≠ r)) = true) = children.countP fun p => p == r := by
      congr 1; funext a; by_cases h : a = r <;> simp [h]
    omega
  by_cases hr : r ∈ children
  · have h2 : children.count r ≤ 1 := List.nodup_iff_count_le_one.mp hd r
    have h3 : 1 ≤ es.countP fun p => decide (p ≠ r) := by
      rw [Nat.one_le_iff_ne_zero, ← Nat.pos_iff_ne_zero, List.countP_pos_iff]
      obtain ⟨x, hx⟩ := List.exists_mem_of_ne_nil _ he
      exact ⟨x, hx, by simp; rintro rfl; exact hdis _ hr hx⟩
    omega
  · rw [List.count_eq_zero_of_not_mem hr] at h1
    omega

theorem SafeSetup.spread (h0 : SafeSetup fit (.tournament size) op mop tr P s0) (hsz : size ≤ numPairs s0.ga 1)
    (hlt : size < s0.ga.attrs.numIndivid) {k : Nat} {s : St ℚ}
    (h : After (singleOps fit (.tournament size) op mop tr) s0 k s) : Spread size s.ga.population := by
  have hops := singleOps_run fit (.tournament size) op mop tr
  cases h with
  | @first s1 _ a b =>
    obtain ⟨_, hperm, _⟩ := first_inv hops.fitness h0.fresh a b
    intro r
    have hnd := hperm.nodup_iff.mpr h0.fresh.distinct
    have hlen := h0.full
    rw [← hperm.length_eq] at hlen
    have h2 : s.ga.population.count r ≤ 1 := List.nodup_iff_count_le_one.mp hnd r
    have h1 : s.ga.population.length ≤ s.ga.population.countP (fun p => decide (p ≠ r)) + s.ga.population.count r := by
      rw [List.count, List.length_eq_countP_add_countP (fun p => decide (p ≠ r))]
      have : (s.ga.population.countP fun a => decide ¬ (decide (a ≠ r)) = true) = s.ga.population.countP fun p => p == r := by
        congr 1; funext a; by_cases h : a = r <;> simp [h]
      omega
    omega
  | @next k t _ a b =>
    have hI := h0.inv a
    obtain ⟨_, s1, s2, s3, es, tp, hB, hlen, hel, _, _, _, _, _, _, _, hperm, _⟩ := generation_inv hops hI.run b
    have hne : t.ga.population ≠ [] := by
      have := hI.full
      have h2 := h0.two
      rw [hI.attrs] at this
      intro he
      rw [he] at this
      simp at this
      omega
    obtain ⟨n0, hn0, hrange, _⟩ := hB.range
    have hnp : numPairs t.ga 1 = numPairs s0.ga 1 := by
      unfold numPairs
      rw [hI.percent, hI.attrs]
    have hsp : Spread size (s1.ga.children ++ es) := by
      refine spread_children ?_ ?_ ?_ ?_
      · rw [hrange]; exact List.nodup_range'
      · intro r hr hre
        rw [hrange, List.mem_range'_1] at hr
        have := hI.run.settled.alive r (hel.mem r hre)
        omega
      · intro e
        have := hel.last
        rw [e] at this
        exact hne (List.getLast?_eq_none_iff.mp this.symm)
      · rw [hlen, hnp]; exact hsz
    intro r
    rw [hperm.countP_eq]
    exact hsp r

theorem SafeSetup.generation_poss (h0 : SafeSetup fit (.tournament size) op mop tr P s0) (hn : s0.seed = none)
    (hsz : size ≤ numPairs s0.ga 1) (h2 : 2 ≤ size) (hlt : size < s0.ga.attrs.numIndivid) {k : Nat} {s : St ℚ}
    (h : After (singleOps fit (.tournament size) op mop tr) s0 k s) :
    Poss (BaumEva.generation (singleOps fit (.tournament size) op mop tr)) s := by
  have hI := h0.inv h
  obtain ⟨_, hseed⟩ := h.more hn []
  refine Poss.bind (m := tournamentExec size) (f := fun _ => breedRest (singleOps fit (.tournament size) op mop tr))
    hseed (tournamentExec_ext size) ?_ ?_
  · refine tournamentExec_poss h2 (by rw [hI.attrs]; exact hlt) hseed hI.run.settled.alive ?_ (h0.spread hsz hlt h)
    intro r hr
    have := hI.run.settled.asc.1 r hr
    unfold scoreKey
    cases hx : (s.heap r).score with
    | none => rw [hx] at this; simp at this
    | some v => exact ⟨v, rfl⟩
  · intro u _ s1 e
    obtain ⟨_, n1⟩ := tournamentExec_ext size (s.more u) s1 () [] hseed e
    refine Poss.of_tame n1 (breedRest_tame _ _ _ _ _) ?_
    intro w
    obtain ⟨e2, _⟩ := tournamentExec_ext size (s.more u) s1 () w hseed e
    rw [St.more_more] at e2
    have hsafe := (h0.more (u ++ w)).generation (h.more hn (u ++ w)).1
    intro er s2 hx
    refine hsafe er s2 ?_
    show (tournamentExec size >>= fun _ => breedRest (singleOps fit (.tournament size) op mop tr)) _ = _
    rw [bind_of_ok e2]
    exact hx

theorem mainLoop_ext (fit : Fit ℚ) (size : Int) (op : CrossOp) (mop : MutOp) (tr : Transfer) : ∀ n,
    ExtOk (mainLoop (singleOps fit (.tournament size) op mop tr) n) := by
  intro n
  induction n with
  | zero => exact (Tame.pure ()).ext
  | succ n ih =>
    rw [mainLoop]
    refine ExtOk.bind (generation_ext fit size op mop tr) fun _ => ExtOk.bind Tame.getGa.ext fun ga => ?_
    cases ga.earlyStop with
    | none => exact (Tame.throwE _).ext
    | some e =>
      show ExtOk (if _ then _ else _)
      split
      · exact (Tame.pure ()).ext
      · exact ih

theorem evolve_ext (fit : Fit ℚ) (size : Int) (op : CrossOp) (mop : MutOp) (tr : Transfer) :
    ExtOk (evolve (singleOps fit (.tournament size) op mop tr)) :=
  ExtOk.bind (Tame.baseFitness fit).ext fun _ => ExtOk.bind Tame.gaUpdate.ext fun _ => ExtOk.bind Tame.getGa.ext fun _ =>
    mainLoop_ext fit size op mop tr _

theorem mainLoop_poss : ∀ {n k : Nat} {s0 s : St ℚ}, SafeSetup fit (.tournament size) op mop tr P s0 → s0.seed = none →
    size ≤ numPairs s0.ga 1 → 2 ≤ size → size < s0.ga.attrs.numIndivid →
    After (singleOps fit (.tournament size) op mop tr) s0 k s →
    Poss (mainLoop (singleOps fit (.tournament size) op mop tr) n) s := by
  intro n
  induction n with
  | zero => intro k s0 s _ _ _ _ _ _; exact Poss.of_ok rfl
  | succ n ih =>
    intro k s0 s h0 hn hsz h2 hlt h
    rw [mainLoop]
    obtain ⟨_, hseed⟩ := h.more hn []
    refine Poss.bind hseed (generation_ext fit size op mop tr) (h0.generation_poss hn hsz h2 hlt h) ?_
    intro u _ s1 e
    have h' := After.next (h.more hn u).1 e
    obtain ⟨_, n1⟩ := h'.more (by exact hn) []
    refine Poss.bind n1 Tame.getGa.ext (Poss.of_ok (getGa_run s1)) ?_
    intro w ga s2 e2
    have e2 := Prod.mk.inj ((getGa_run _).symm.trans e2)
    obtain ⟨e3, rfl⟩ := e2
    injection e3 with e3
    subst e3
    have hI := (h0.more u).inv h'
    show Poss (match s1.ga.earlyStop with | none => _ | some e => _) _
    cases he : s1.ga.earlyStop with
    | none => exact absurd (hI.stop.symm.trans he) h0.stop
    | some e =>
      simp only
      split
      · exact Poss.of_ok rfl
      · exact ih ((h0.more u).more w) hn hsz h2 hlt (h'.more (by exact hn) w).1

theorem evolve_poss (h0 : SafeSetup fit (.tournament size) op mop tr P s0) (hn : s0.seed = none)
    (hsz : size ≤ numPairs s0.ga 1) (h2 : 2 ≤ size) (hlt : size < s0.ga.attrs.numIndivid) :
    Poss (evolve (singleOps fit (.tournament size) op mop tr)) s0 := by
  have hsafe := fun u => (h0.more u).evolve
  unfold evolve at hsafe ⊢
  refine Poss.bind hn (Tame.baseFitness fit).ext ?_ ?_
  · refine Poss.of_tame hn (Tame.baseFitness fit) fun u => ?_
    intro e s' hx
    exact hsafe u e s' (bind_of_err hx)
  intro u _ s1 e1
  obtain ⟨_, n1⟩ := (Tame.baseFitness fit).ext (s0.more u) s1 () [] hn e1
  refine Poss.bind n1 Tame.gaUpdate.ext ?_ ?_
  · refine Poss.of_tame n1 Tame.gaUpdate fun w => ?_
    intro e s' hx
    obtain ⟨e2, _⟩ := (Tame.baseFitness fit).ext (s0.more u) s1 () w hn e1
    rw [St.more_more] at e2
    refine hsafe (u ++ w) e s' ?_
    show (baseFitnessExec fit >>= _) _ = _
    rw [bind_of_ok e2]
    exact bind_of_err hx
  intro w _ s2 e2
  obtain ⟨_, n2⟩ := Tame.gaUpdate.ext (s1.more w) s2 () [] n1 e2
  obtain ⟨e1', _⟩ := (Tame.baseFitness fit).ext (s0.more u) s1 () w hn e1
  have hA : After (singleOps fit (.tournament size) op mop tr) ((s0.more u).more w) 1 s2 := After.first e1' e2
  refine Poss.bind n2 Tame.getGa.ext (Poss.of_ok (getGa_run s2)) ?_
  intro z ga s3 e3
  obtain ⟨_, rfl⟩ := Prod.mk.inj ((getGa_run _).symm.trans e3)
  exact mainLoop_poss (((h0.more u).more w).more z) hn hsz h2 hlt (hA.more (by exact hn) z).1

end
end BaumEva
