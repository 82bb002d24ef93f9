import Verif.Spec.Portfolio
/-!
# Specification: one price, traded on two exchanges

The volume of a bar is the sum of the volumes of two exchanges (`holding v v'`). The readings `r1` and `r2` with the volume of one exchange
each are compared with the reading `r` with the merged volume.
-/

namespace Traquer
variable {ρ : Rounding}

/-- The reading with the merged volume is the sum of the two readings. -/
def VolumeAdds (n k : ℕ) (r1 r2 r : Option (List (FP ρ))) : Prop :=
  ∃ a b, Reports n k a r1 ∧ Reports n k b r2 ∧ Reports n k (fun i => a i + b i) r

/-- The reading with the merged volume lies between the two readings. -/
def VolumeMixes (n k : ℕ) (r1 r2 r : Option (List (FP ρ))) : Prop :=
  ∃ a b c, Reports n k a r1 ∧ Reports n k b r2 ∧ Reports n k c r ∧ ∀ i, k ≤ i → i < n → min (a i) (b i) ≤ c i ∧ c i ≤ max (a i) (b i)

end Traquer
