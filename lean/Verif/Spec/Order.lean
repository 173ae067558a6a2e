import Verif.Spec.Qef

/-! Vocabulary for independence of the order of calls (C78). -/

namespace Isomesh.Spec

/-- What a caller learns from `solve`: the point and the feature dimension. -/
noncomputable def answer {d : Nat} (M : Nat) (tiny : ℝ) (q : Qef ℝ (d + 2)) (lo hi : VecN ℝ (d + 2)) :
    Option (VecN ℝ (d + 2) × Nat) := (q.solve M tiny lo hi).map fun r => (r.2, r.1.featureDim)

end Isomesh.Spec
