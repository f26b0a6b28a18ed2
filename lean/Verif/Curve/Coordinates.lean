import Verif.Curve.Group

/-!
# Coordinates of affine points
-/

namespace Halo2.Curve

variable {F : Type} [Field F] [DecidableEq F] [BaseField F]

/-- Models src/derive/curve.rs:825-827 (`coordinates`). `Coordinates::from_xy` of `pasta_curves` returns the pair when
`CurveAffine::from_xy` (here src/derive/curve.rs:829-834) accepts it. -/
def Aff.coordinates (C : Params F) (A : Aff F) : Option (F × F) :=
  (Aff.fromXY C A.x A.y).map fun _ => (A.x, A.y)

end Halo2.Curve
