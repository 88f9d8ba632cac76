import Verif.Proofs.ImageRun
/-!
# Runs of a transformed problem: ranked selections

`Img` for the rank assignment, for transformations that leave the ranking criterion as it is.
-/
namespace BaumEva
namespace Img
variable {σ : Type} {R : Ren σ}

theorem writeTies {f : ℚ → Ind σ → Ind σ} (hf : ∀ q x, f q (R.ind x) = R.ind (f q x)) (a b : Int) (n : Nat) :
    Img R id (BaumEva.writeTies f a b n) (BaumEva.writeTies f a b n) :=
  getGa_bind fun _ _ => forEach_id (fun _ => bind (popAt _) fun r => modInd r (hf _)) _

theorem rankedStep {f : ℚ → Ind σ → Ind σ} (hf : ∀ q x, f q (R.ind x) = R.ind (f q x)) (n idx : Nat) (sc prev : ℚ) (count : Nat) :
    Img R id (BaumEva.rankedStep f n idx sc prev count) (BaumEva.rankedStep f n idx sc prev count) :=
  ite Iff.rfl
    (fun _ => ite Iff.rfl (fun _ => bind (writeTies hf _ _ _) fun _ => pure rfl) fun _ => pure rfl)
    fun _ => ite Iff.rfl (fun _ => bind (writeTies hf _ _ _) fun _ => pure rfl) fun _ => pure rfl

theorem rankedLoop {key : Ind σ → Except PyErr ℚ} (hk : ∀ x, key (R.ind x) = key x) {f : ℚ → Ind σ → Ind σ}
    (hf : ∀ q x, f q (R.ind x) = R.ind (f q x)) (n : Nat) : ∀ k idx prev count,
      Img R id (BaumEva.rankedLoop key f n k idx prev count) (BaumEva.rankedLoop key f n k idx prev count)
  | 0, _, _, _ => unit
  | k + 1, _, _, _ =>
    bind (popAt _) fun r => bind (modInd r (hf _)) fun _ => bind (getInd r) fun x => by
      rw [hk]
      exact bind liftE_id fun _ => bind (rankedStep hf _ _ _ _ _) fun _ => rankedLoop hk hf n k _ _ _

theorem assignRanked {key : Ind σ → Except PyErr ℚ} (hk : ∀ x, key (R.ind x) = key x) {f : ℚ → Ind σ → Ind σ}
    (hf : ∀ q x, f q (R.ind x) = R.ind (f q x)) : Img R id (BaumEva.assignRanked key f) (BaumEva.assignRanked key f) :=
  getGa_bind fun ga _ => rankedLoop hk hf ga.population.length _ _ _ _

section
variable {R : Ren ℚ}

/-- The single-objective selections, when individuals stay what they are. -/
theorem selExec (hi : ∀ x, R.ind x = x) (hm : StrictMono R.sc) : ∀ sel, Img R id (BaumEva.selExec sel) (BaumEva.selExec sel)
  | .tournament size => tournamentExec hm size
  | .balanced => balancedWith unit (v := id) (fun x => by rw [hi]; cases BaumEva.scoreKey x <;> rfl) (fun ws => by rw [List.map_id]) 1
  | .ranked => balancedWith (assignRanked (fun x => by rw [hi]) fun q x => by rw [hi, hi]) (v := id)
      (fun x => by rw [hi]; cases BaumEva.rankKey x <;> rfl) (fun ws => by rw [List.map_id]) 1

end

section
variable {R : Ren (List ℚ)}

/-- The selections for vectors of scores, when individuals stay what they are. -/
theorem vegaSelExec (hi : ∀ x, R.ind x = x) (m : Nat) : ∀ sel, Img R id (BaumEva.vegaSelExec m sel) (BaumEva.vegaSelExec m sel)
  | .tournament size => vegaTournamentExec m size (w := fun _ => id) (fun _ => strictMono_id)
      fun i x => by rw [hi]; cases scoreAt i x <;> rfl
  | .balanced => forEach_id (fun i => balancedWith unit (v := id) (fun x => by rw [hi]; cases scoreAt i x <;> rfl)
      (fun ws => by rw [List.map_id]) m) _
  | .ranked => getGa_bind fun ga _ => bind (forEach_id (l := ga.population) fun r => modInd r fun x => by rw [hi, hi]) fun _ =>
      forEach_id (fun i => balancedWith (assignRanked (fun x => by rw [hi]) fun q x => by rw [hi, hi]) (v := id)
        (fun x => by rw [hi]; cases rankAt i x <;> rfl) (fun ws => by rw [List.map_id]) m) _

end
end Img
end BaumEva
