import Verif.Ext.Model

/-!
# Sum and product of iterators over the extension fields
-/

namespace Halo2.Ext

variable {F : Type} [CommRing F] [ExtField F]

/-- Models src/derive/mod.rs:222-224 (`Sum::sum`) for the quadratic extensions. -/
def Quad.sum (l : List (Quad F)) : Quad F := l.foldl (fun acc item => Quad.add acc item) Quad.zero

/-- Models src/derive/mod.rs:228-230 (`Product::product`) for the quadratic extensions. -/
def Quad.product (l : List (Quad F)) : Quad F := l.foldl (fun acc item => Quad.mul acc item) Quad.one

/-- Models src/derive/mod.rs:222-224 (`Sum::sum`) for the cubic extensions. -/
def Cubic.sum (l : List (Cubic F)) : Cubic F := l.foldl (fun acc item => Cubic.add acc item) Cubic.zero

/-- Models src/derive/mod.rs:228-230 (`Product::product`) for the cubic extensions. -/
def Cubic.product (l : List (Cubic F)) : Cubic F := l.foldl (fun acc item => Cubic.mul acc item) Cubic.one

end Halo2.Ext
