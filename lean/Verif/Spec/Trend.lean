import Verif.Spec.Flow
/-!
# Specification: steady trends

Nothing here mentions the model.
-/

namespace Traquer

/-- Every value is above the one before. -/
def Rising (l : List ℝ) : Prop := ∀ i, i + 1 < l.length → bar l i < bar l (i + 1)

/-- Every value is below the one before. -/
def Falling (l : List ℝ) : Prop := ∀ i, i + 1 < l.length → bar l (i + 1) < bar l i

end Traquer
