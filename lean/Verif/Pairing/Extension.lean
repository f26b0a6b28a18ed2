import Mathlib.Algebra.Group.Hom.Basic
import Mathlib.Algebra.Group.Prod
import Mathlib.Algebra.Group.Int.Defs
import Mathlib.Algebra.Ring.Int.Defs
import Mathlib.Algebra.Group.Basic
import Mathlib.Tactic.Ring
import Mathlib.Tactic.Group
import Mathlib.Tactic.Abel

/-!
# Extensions of an abelian group by a symmetric cocycle

The values of the lines of a Miller loop, after the final exponentiation, form a symmetric
2-cocycle `γ` of the group of points with values in a commutative group `M`.  The state of the
loop is an element of the extension of the group of points by `M` defined by `γ`: a doubling step
squares the state, an addition step multiplies it by the state of the point added.  What the loop
computes is then a homomorphism applied to the state of the point, which gives additivity.
-/

namespace Halo2.Pairing

/-- A normalised symmetric 2-cocycle which is trivial on opposite points. -/
structure Cocycle (A M : Type) [AddCommGroup A] [CommGroup M] where
  /-- The values. -/
  f : A → A → M
  symm : ∀ a b, f a b = f b a
  zero : ∀ a, f 0 a = 1
  neg : ∀ a, f a (-a) = 1
  assoc : ∀ a b c, f a b * f (a + b) c = f b c * f a (b + c)

variable {A B M L : Type} [AddCommGroup A] [AddCommGroup B] [CommGroup M] [CommGroup L]

/-- The elements of the extension. -/
@[ext] structure Ext (γ : Cocycle A M) where
  /-- The value. -/
  m : M
  /-- The point. -/
  a : A

namespace Ext

variable {γ : Cocycle A M} {γ' : Cocycle B L}

instance : Mul (Ext γ) := ⟨fun x y => ⟨x.m * y.m * γ.f x.a y.a, x.a + y.a⟩⟩
instance : One (Ext γ) := ⟨⟨1, 0⟩⟩
instance : Inv (Ext γ) := ⟨fun x => ⟨x.m⁻¹, -x.a⟩⟩

theorem mul_m (x y : Ext γ) : (x * y).m = x.m * y.m * γ.f x.a y.a := rfl
theorem mul_a (x y : Ext γ) : (x * y).a = x.a + y.a := rfl
theorem one_m : (1 : Ext γ).m = 1 := rfl
theorem one_a : (1 : Ext γ).a = 0 := rfl
theorem inv_m (x : Ext γ) : (x⁻¹).m = x.m⁻¹ := rfl
theorem inv_a (x : Ext γ) : (x⁻¹).a = -x.a := rfl

instance : CommGroup (Ext γ) where
  mul_assoc x y z := by
    ext
    · rw [mul_m, mul_m, mul_m, mul_m, mul_a, mul_a]
      have h := γ.assoc x.a y.a z.a
      calc x.m * y.m * γ.f x.a y.a * z.m * γ.f (x.a + y.a) z.a
          = x.m * y.m * z.m * (γ.f x.a y.a * γ.f (x.a + y.a) z.a) := by
            simp only [mul_assoc, mul_left_comm, mul_comm]
        _ = x.m * y.m * z.m * (γ.f y.a z.a * γ.f x.a (y.a + z.a)) := by rw [h]
        _ = _ := by simp only [mul_assoc, mul_left_comm, mul_comm]
    · rw [mul_a, mul_a, mul_a, mul_a, add_assoc]
  one_mul x := by
    ext
    · rw [mul_m, one_m, one_a, γ.zero, one_mul, mul_one]
    · rw [mul_a, one_a, zero_add]
  mul_one x := by
    ext
    · rw [mul_m, one_m, one_a, γ.symm, γ.zero, mul_one, mul_one]
    · rw [mul_a, one_a, add_zero]
  inv_mul_cancel x := by
    ext
    · rw [mul_m, inv_m, inv_a, γ.symm, γ.neg, mul_one, inv_mul_cancel, one_m]
    · rw [mul_a, inv_a, neg_add_cancel, one_a]
  mul_comm x y := by
    ext
    · rw [mul_m, mul_m, γ.symm, mul_comm x.m]
    · rw [mul_a, mul_a, add_comm]

/-- The state of a point. -/
def s (γ : Cocycle A M) (a : A) : Ext γ := ⟨1, a⟩

/-- The values as elements of the extension. -/
def ofM (γ : Cocycle A M) : M →* Ext γ where
  toFun m := ⟨m, 0⟩
  map_one' := rfl
  map_mul' x y := by
    ext
    · rw [mul_m]; change x * y = x * y * γ.f 0 0; rw [γ.zero, mul_one]
    · rw [mul_a]; change (0 : A) = 0 + 0; rw [add_zero]

theorem ofM_m (m : M) : (ofM γ m).m = m := rfl
theorem ofM_a (m : M) : (ofM γ m).a = 0 := rfl

theorem s_mul (a b : A) : s γ a * s γ b = ofM γ (γ.f a b) * s γ (a + b) := by
  ext
  · rw [mul_m, mul_m]
    change 1 * 1 * γ.f a b = γ.f a b * 1 * γ.f 0 (a + b)
    rw [γ.zero, one_mul, one_mul, mul_one, mul_one]
  · change a + b = 0 + (a + b)
    rw [zero_add]

theorem s_neg (a : A) : s γ (-a) = (s γ a)⁻¹ := by
  ext
  · change (1 : M) = 1⁻¹; rw [inv_one]
  · rfl

theorem s_zero : s γ 0 = 1 := rfl

/-- An element of the extension is its value times the state of its point. -/
theorem eq_ofM_mul_s (x : Ext γ) : x = ofM γ x.m * s γ x.a := by
  ext
  · rw [mul_m]; change x.m = x.m * 1 * γ.f 0 x.a; rw [γ.zero, mul_one, mul_one]
  · change x.a = 0 + x.a; rw [zero_add]

/-- The homomorphism of extensions induced by compatible homomorphisms. -/
def map (γ : Cocycle A M) (γ' : Cocycle B L) (f : M →* L) (g : A →+ B)
    (h : ∀ a b, f (γ.f a b) = γ'.f (g a) (g b)) : Ext γ →* Ext γ' where
  toFun x := ⟨f x.m, g x.a⟩
  map_one' := by
    ext
    · exact map_one f
    · exact map_zero g
  map_mul' x y := by
    ext
    · rw [mul_m, mul_m]; change f (x.m * y.m * _) = _; rw [map_mul, map_mul, h]
    · exact map_add g _ _

theorem map_s (f : M →* L) (g : A →+ B) (h : ∀ a b, f (γ.f a b) = γ'.f (g a) (g b)) (a : A) :
    map γ γ' f g h (s γ a) = s γ' (g a) := by
  ext
  · exact map_one f
  · rfl

/-- The homomorphism to the values when the cocycle is a coboundary. -/
def cob (γ : Cocycle A M) (f : M →* L) (k : A → L)
    (h : ∀ a b, f (γ.f a b) * k (a + b) = k a * k b) : Ext γ →* L where
  toFun x := f x.m * k x.a
  map_one' := by
    have h0 := h 0 0
    rw [γ.zero, map_one, one_mul, add_zero] at h0
    change f 1 * k 0 = 1
    rw [map_one, one_mul]
    exact (mul_eq_left.mp h0.symm)
  map_mul' x y := by
    rw [mul_m, mul_a, map_mul, map_mul, mul_assoc, h]
    simp only [mul_assoc, mul_left_comm, mul_comm]

end Ext

/-! ### The homomorphism computed by a loop -/

/-- `∏ᵢ (Ψⁱ x)^(cᵢ)`. -/
def theta {E : Type} [CommGroup E] (Ψ : E →* E) : List ℤ → E → E
  | [], _ => 1
  | c :: cs, x => x ^ c * theta Ψ cs (Ψ x)

theorem theta_mul {E : Type} [CommGroup E] (Ψ : E →* E) (cs : List ℤ) (x y : E) :
    theta Ψ cs (x * y) = theta Ψ cs x * theta Ψ cs y := by
  induction cs generalizing x y with
  | nil => rw [theta, theta, theta, mul_one]
  | cons c cs ih =>
    rw [theta, theta, theta, map_mul, ih, mul_zpow, mul_mul_mul_comm]

/-- The homomorphism is natural. -/
theorem map_theta {E E' : Type} [CommGroup E] [CommGroup E'] (Ψ : E →* E) (Ψ' : E' →* E')
    (f : E →* E') (h : ∀ x, f (Ψ x) = Ψ' (f x)) (cs : List ℤ) (x : E) :
    f (theta Ψ cs x) = theta Ψ' cs (f x) := by
  induction cs generalizing x with
  | nil => rw [theta, theta, map_one]
  | cons c cs ih => rw [theta, theta, map_mul, map_zpow, ih, h]

/-- `∑ᵢ cᵢ pⁱ`. -/
def horner (p : ℤ) : List ℤ → ℤ
  | [] => 0
  | c :: cs => c + p * horner p cs

/-- On a group where the map is the power `p`. -/
theorem theta_pow {E : Type} [CommGroup E] (Ψ : E →* E) (p : ℕ) (cs : List ℤ) (x : E)
    (h : ∀ x, Ψ x = x ^ p) : theta Ψ cs x = x ^ horner p cs := by
  induction cs generalizing x with
  | nil => rw [theta, horner, zpow_zero]
  | cons c cs ih =>
    rw [theta, horner, ih, h, zpow_add, zpow_mul, zpow_natCast]

/-- The additive form on the group of points. -/
def thetaA (ψ : A →+ A) : List ℤ → A → A
  | [], _ => 0
  | c :: cs, a => c • a + thetaA ψ cs (ψ a)

/-- The projection of the extension to the points. -/
theorem Ext.zpow_a {γ : Cocycle A M} (x : Ext γ) (n : ℤ) : (x ^ n).a = n • x.a := by
  let π : Ext γ →* Multiplicative A :=
    { toFun := fun x => Multiplicative.ofAdd x.a, map_one' := rfl, map_mul' := fun _ _ => rfl }
  have h := map_zpow π x n
  exact congrArg Multiplicative.toAdd h

theorem theta_a {γ : Cocycle A M} (Ψ : Ext γ →* Ext γ) (ψ : A →+ A)
    (h : ∀ x, (Ψ x).a = ψ x.a) (cs : List ℤ) (x : Ext γ) :
    (theta Ψ cs x).a = thetaA ψ cs x.a := by
  induction cs generalizing x with
  | nil => rfl
  | cons c cs ih => rw [theta, thetaA, Ext.mul_a, Ext.zpow_a, ih, h]

/-! ### The abstract pairing -/

/-- A cocycle with a compatible Frobenius. -/
structure FrobCocycle (A M : Type) [AddCommGroup A] [CommGroup M] (p : ℕ) (ψ : A →+ A) extends
    Cocycle A M where
  frob : ∀ a b, f (ψ a) (ψ b) = f a b ^ p

variable {p : ℕ} {ψ : A →+ A}

/-- The Frobenius of the extension. -/
def FrobCocycle.Psi (γ : FrobCocycle A M p ψ) : Ext γ.toCocycle →* Ext γ.toCocycle :=
  Ext.map _ _ (powMonoidHom p) ψ fun a b => (γ.frob a b).symm

/-- The value of the pairing loop with coefficients `cs`. -/
def FrobCocycle.ate (γ : FrobCocycle A M p ψ) (cs : List ℤ) (a : A) : M :=
  (theta γ.Psi cs (Ext.s γ.toCocycle a)).m

theorem FrobCocycle.ate_eq (γ : FrobCocycle A M p ψ) (cs : List ℤ) (a : A)
    (ha : thetaA ψ cs a = 0) :
    theta γ.Psi cs (Ext.s γ.toCocycle a) = Ext.ofM γ.toCocycle (γ.ate cs a) := by
  ext
  · rfl
  · rw [theta_a γ.Psi ψ (fun _ => rfl)]
    exact ha

theorem FrobCocycle.theta_ofM (γ : FrobCocycle A M p ψ) (cs : List ℤ) (m : M) :
    theta γ.Psi cs (Ext.ofM γ.toCocycle m) = Ext.ofM γ.toCocycle (m ^ horner p cs) := by
  rw [← theta_pow (powMonoidHom p) p cs m (fun _ => rfl)]
  refine (map_theta (powMonoidHom p) γ.Psi (Ext.ofM γ.toCocycle) (fun x => ?_) cs m).symm
  ext
  · rfl
  · exact (map_zero ψ).symm

/-- **Additivity in the second argument.** -/
theorem FrobCocycle.ate_add (γ : FrobCocycle A M p ψ) (cs : List ℤ) {a b : A}
    (ha : thetaA ψ cs a = 0) (hb : thetaA ψ cs b = 0) (hγ : γ.f a b ^ horner p cs = 1) :
    γ.ate cs (a + b) = γ.ate cs a * γ.ate cs b := by
  have h := congrArg (theta γ.Psi cs) (Ext.s_mul (γ := γ.toCocycle) a b)
  rw [theta_mul, theta_mul, γ.theta_ofM, hγ, map_one, one_mul, γ.ate_eq cs a ha,
    γ.ate_eq cs b hb, ← map_mul] at h
  have h1 := congrArg Ext.m h
  rw [Ext.ofM_m] at h1
  exact h1.symm

/-- **Additivity in the first argument**: a relation between cocycles up to a coboundary. -/
theorem FrobCocycle.ate_mul (γ1 γ2 γ3 : FrobCocycle A M p ψ) (k : A → M)
    (h : ∀ a b, γ1.f a b * γ2.f a b * (γ3.f a b)⁻¹ * k (a + b) = k a * k b)
    (hk : ∀ a, k (ψ a) = k a ^ p) (cs : List ℤ) {a : A} (ha : thetaA ψ cs a = 0)
    (hka : k a ^ horner p cs = 1) :
    γ3.ate cs a = γ1.ate cs a * γ2.ate cs a := by
  let γ : FrobCocycle A (M × M × M) p ψ :=
    { f := fun a b => (γ1.f a b, γ2.f a b, γ3.f a b)
      symm := fun a b => by rw [γ1.symm, γ2.symm, γ3.symm]
      zero := fun a => by rw [γ1.zero, γ2.zero, γ3.zero]; rfl
      neg := fun a => by rw [γ1.neg, γ2.neg, γ3.neg]; rfl
      assoc := fun a b c => Prod.ext (γ1.assoc a b c) (Prod.ext (γ2.assoc a b c) (γ3.assoc a b c))
      frob := fun a b => Prod.ext (γ1.frob a b) (Prod.ext (γ2.frob a b) (γ3.frob a b)) }
  have e1 : (γ.ate cs a).1 = γ1.ate cs a := by
    have := map_theta γ.Psi γ1.Psi (Ext.map γ.toCocycle γ1.toCocycle (MonoidHom.fst _ _)
      (AddMonoidHom.id A) (fun a b => rfl)) (fun x => rfl) cs (Ext.s γ.toCocycle a)
    exact congrArg Ext.m this
  have e2 : (γ.ate cs a).2.1 = γ2.ate cs a := by
    have := map_theta γ.Psi γ2.Psi (Ext.map γ.toCocycle γ2.toCocycle
      ((MonoidHom.fst _ _).comp (MonoidHom.snd _ _))
      (AddMonoidHom.id A) (fun a b => rfl)) (fun x => rfl) cs (Ext.s γ.toCocycle a)
    exact congrArg Ext.m this
  have e3 : (γ.ate cs a).2.2 = γ3.ate cs a := by
    have := map_theta γ.Psi γ3.Psi (Ext.map γ.toCocycle γ3.toCocycle
      ((MonoidHom.snd _ _).comp (MonoidHom.snd _ _))
      (AddMonoidHom.id A) (fun a b => rfl)) (fun x => rfl) cs (Ext.s γ.toCocycle a)
    exact congrArg Ext.m this
  let f : M × M × M →* M :=
    { toFun := fun x => x.1 * x.2.1 * x.2.2⁻¹
      map_one' := by change (1 : M) * 1 * 1⁻¹ = 1; rw [inv_one, mul_one, mul_one]
      map_mul' := fun x y => by
        change x.1 * y.1 * (x.2.1 * y.2.1) * (x.2.2 * y.2.2)⁻¹ = _
        rw [mul_inv]
        simp only [mul_assoc, mul_left_comm, mul_comm] }
  have hc := map_theta γ.Psi (powMonoidHom p) (Ext.cob γ.toCocycle f k h)
    (fun x => by
      change f (x.m ^ p) * k (ψ x.a) = (f x.m * k x.a) ^ p
      rw [map_pow, hk, mul_pow]) cs (Ext.s γ.toCocycle a)
  replace hc := hc.trans (theta_pow (E := M) (powMonoidHom p) p cs _ (fun _ => rfl))
  rw [γ.ate_eq cs a ha] at hc
  have hk0 : k 0 = 1 := by
    have h0 := h 0 0
    rw [γ1.zero, γ2.zero, γ3.zero, inv_one, mul_one, mul_one, one_mul, add_zero] at h0
    exact (mul_eq_left.mp h0.symm)
  have h1 : f (γ.ate cs a) * k 0 = (f 1 * k a) ^ horner p cs := hc
  rw [map_one, one_mul, hka, hk0, mul_one] at h1
  change (γ.ate cs a).1 * (γ.ate cs a).2.1 * (γ.ate cs a).2.2⁻¹ = 1 at h1
  rw [e1, e2, e3] at h1
  exact (mul_inv_eq_one.mp h1).symm

end Halo2.Pairing
