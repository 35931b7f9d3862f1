import Verif.Num.Fl
/-!
# IEEE-754 arithmetic with signed zeros

`Fl` has one zero. `SFl` has two: `of 0` is `+0` and `negz` is `-0`; all other numbers are those of `Fl`. The signs of zeros follow IEEE 754-2019, 6.3. NaNs have no sign.
-/

namespace Verif

/-- the numbers of a format, with `-0` -/
inductive SFl (f : Fmt) where
  | negz
  | of (a : Fl f)

namespace SFl
variable {f : Fmt}

/-- the zero of `Fl` -/
def zeroFl : Fl f := .fin 0 ⟨f.grid_zero, by rw [abs_zero]; exact f.max_pos.le⟩

/-- the number without the sign of a zero -/
def num : SFl f → Fl f
  | negz => zeroFl
  | of a => a

/-- the sign bit (that of a NaN is not modelled) -/
def sgn : SFl f → Bool
  | negz => true
  | of .ninf => true
  | of (.fin q _) => decide (q < 0)
  | of _ => false

/-- is it a zero? -/
def isZ : Fl f → Bool
  | .fin q _ => decide (q = 0)
  | _ => false

/-- a result, with the sign it has if it is a zero -/
def withSign (s : Bool) (a : Fl f) : SFl f := if isZ a && s then negz else of a

def neg (x : SFl f) : SFl f := withSign (!sgn x) (Fl.neg x.num)

/-- a sum that is exactly zero is `-0` only if both operands are negative zeros (no sum of two numbers underflows) -/
def add (x y : SFl f) : SFl f := withSign (sgn x && sgn y) (Fl.add x.num y.num)

def sub (x y : SFl f) : SFl f := add x (neg y)

def mul (x y : SFl f) : SFl f := withSign (sgn x != sgn y) (Fl.mul x.num y.num)

/-- `Fl.div` by zero has the sign of the numerator, as with `+0`; with `-0` it is the other one -/
def div (x y : SFl f) : SFl f :=
  match y with
  | negz => of (Fl.neg (Fl.div x.num zeroFl))
  | of b => withSign (sgn x != sgn (of b)) (Fl.div x.num b)

/-- the square root of `-0` is `-0` -/
def sqrt : SFl f → SFl f
  | negz => negz
  | of a => of (Fl.sqrt a)

instance : FloatOps (SFl f) where
  add := add
  sub := sub
  mul := mul
  div := div
  neg := neg
  ofInt n := of (Fl.mk n)
  half := of (Fl.mk (1 / 2))
  sqrt := sqrt
  cube a := mul (mul a a) a
  lt a b := Fl.lt a.num b.num
  eq a b := Fl.eq a.num b.num
  isNaN a := Fl.isNaN a.num
  isInf a := Fl.isInf a.num
  maxVal := of FloatOps.maxVal
  eps := of FloatOps.eps

@[simp] theorem num_of (a : Fl f) : (of a).num = a := rfl

theorem num_withSign (s : Bool) (a : Fl f) : (withSign s a).num = a := by
  unfold withSign
  split
  next h =>
    cases a with
    | fin q hq =>
      simp only [isZ, Bool.and_eq_true, decide_eq_true_eq] at h
      obtain ⟨rfl, -⟩ := h
      rfl
    | _ => simp [isZ] at h
  next => rfl

theorem add_neg_eq_sub (a b : Fl f) : Fl.add a (Fl.neg b) = Fl.sub a b := by
  cases a <;> cases b <;> simp [Fl.add, Fl.neg, Fl.sub, sub_eq_add_neg]

theorem neg_zeroFl : Fl.neg (zeroFl : Fl f) = zeroFl := by simp [zeroFl, Fl.neg]

theorem num_neg (x : SFl f) : (neg x).num = Fl.neg x.num := num_withSign _ _

theorem num_add (x y : SFl f) : (add x y).num = Fl.add x.num y.num := num_withSign _ _

theorem num_sub (x y : SFl f) : (sub x y).num = Fl.sub x.num y.num := by
  rw [sub, num_add, num_neg, add_neg_eq_sub]

theorem num_mul (x y : SFl f) : (mul x y).num = Fl.mul x.num y.num := num_withSign _ _

theorem num_sqrt (h0 : f.sqrtq 0 = 0) (x : SFl f) : (sqrt x).num = Fl.sqrt x.num := by
  cases x with
  | negz => simp [sqrt, num, zeroFl, Fl.sqrt, Fl.ofGrid, h0, f.max_pos.le]
  | of a => rfl

theorem num_div (x y : SFl f) (h : y ≠ negz) : (div x y).num = Fl.div x.num y.num := by
  cases y with
  | negz => exact absurd rfl h
  | of b => exact num_withSign _ _

end SFl
end Verif
