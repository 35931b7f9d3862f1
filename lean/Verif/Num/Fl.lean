import Mathlib.Algebra.Order.Field.Rat
import Mathlib.Tactic.Linarith
import Mathlib.Tactic.Positivity
import Mathlib.Tactic.NormNum
import Mathlib.Data.Nat.Sqrt
import Verif.Num.FloatOps
/-!
# Floating point numbers as a grid of rationals with overflow and NaN

`Fmt` describes a format: the finite values are the grid points of magnitude at most `max`.
Results of operations are rounded to the grid; results beyond `max` become infinite.
Zero is unsigned (`x / 0` behaves like `x / +0`).  `Verif.Num.Ieee` gives the IEEE-754
round-to-nearest-even binary formats, `Fmt.exact` the format without rounding.
-/

namespace Verif

/-- A floating point format. -/
structure Fmt where
  /-- representable numbers, ignoring overflow -/
  Grid : ℚ → Prop
  /-- rounding, ignoring overflow -/
  rnd : ℚ → ℚ
  /-- square root rounded to the grid (on non-negative arguments) -/
  sqrtq : ℚ → ℚ
  /-- largest finite number -/
  max : ℚ
  /-- the constant returned by `FloatEpsilon`, before rounding -/
  epsq : ℚ
  rnd_grid : ∀ q, Grid (rnd q)
  rnd_id : ∀ q, Grid q → rnd q = q
  rnd_mono : ∀ q r, q ≤ r → rnd q ≤ rnd r
  rnd_neg : ∀ q, rnd (-q) = -rnd q
  sqrt_grid : ∀ q, Grid (sqrtq q)
  sqrt_mono : ∀ q r, q ≤ r → sqrtq q ≤ sqrtq r
  sqrt_nonneg : ∀ q, 0 ≤ sqrtq q
  grid_max : Grid max
  max_pos : 0 < max
  /-- gradual underflow -/
  sub_ne : ∀ a b, Grid a → Grid b → a ≠ b → rnd (a - b) ≠ 0

namespace Fmt
variable (f : Fmt)

theorem rnd_zero : f.rnd 0 = 0 := by
  have h := f.rnd_neg 0
  simp only [neg_zero] at h
  linarith

theorem rnd_nonneg {q : ℚ} (h : 0 ≤ q) : 0 ≤ f.rnd q := by
  have := f.rnd_mono 0 q h
  rwa [f.rnd_zero] at this

theorem rnd_nonpos {q : ℚ} (h : q ≤ 0) : f.rnd q ≤ 0 := by
  have := f.rnd_mono q 0 h
  rwa [f.rnd_zero] at this

theorem grid_zero : f.Grid 0 := by
  have := f.rnd_grid 0
  rwa [f.rnd_zero] at this

theorem grid_neg {q : ℚ} (h : f.Grid q) : f.Grid (-q) := by
  have := f.rnd_grid (-q)
  rwa [f.rnd_neg, f.rnd_id q h] at this

end Fmt

/-- The numbers of a format. -/
inductive Fl (f : Fmt) where
  | nan
  | pinf
  | ninf
  | fin (q : ℚ) (h : f.Grid q ∧ |q| ≤ f.max)

namespace Fl
variable {f : Fmt}

/-- overflow a grid point -/
def ofGrid (q : ℚ) (h : f.Grid q) : Fl f :=
  if h' : |q| ≤ f.max then .fin q ⟨h, h'⟩ else if 0 < q then .pinf else .ninf

/-- round and overflow an exact result -/
def mk (q : ℚ) : Fl f := ofGrid (f.rnd q) (f.rnd_grid q)

def neg : Fl f → Fl f
  | nan => nan
  | pinf => ninf
  | ninf => pinf
  | fin q h => fin (-q) ⟨f.grid_neg h.1, by rw [abs_neg]; exact h.2⟩

def add : Fl f → Fl f → Fl f
  | nan, _ => nan
  | _, nan => nan
  | pinf, ninf => nan
  | ninf, pinf => nan
  | pinf, _ => pinf
  | _, pinf => pinf
  | ninf, _ => ninf
  | _, ninf => ninf
  | fin a _, fin b _ => mk (a + b)

def sub : Fl f → Fl f → Fl f
  | nan, _ => nan
  | _, nan => nan
  | pinf, pinf => nan
  | ninf, ninf => nan
  | pinf, _ => pinf
  | _, pinf => ninf
  | ninf, _ => ninf
  | _, ninf => pinf
  | fin a _, fin b _ => mk (a - b)

/-- infinity with the sign of `q`, NaN for 0 -/
def infSign (q : ℚ) : Fl f := if 0 < q then pinf else if q < 0 then ninf else nan

def mul : Fl f → Fl f → Fl f
  | nan, _ => nan
  | _, nan => nan
  | pinf, pinf => pinf
  | pinf, ninf => ninf
  | ninf, pinf => ninf
  | ninf, ninf => pinf
  | pinf, fin b _ => infSign b
  | fin a _, pinf => infSign a
  | ninf, fin b _ => infSign (-b)
  | fin a _, ninf => infSign (-a)
  | fin a _, fin b _ => mk (a * b)

def div : Fl f → Fl f → Fl f
  | nan, _ => nan
  | _, nan => nan
  | pinf, pinf => nan
  | pinf, ninf => nan
  | ninf, pinf => nan
  | ninf, ninf => nan
  | pinf, fin b _ => if b < 0 then ninf else pinf
  | ninf, fin b _ => if b < 0 then pinf else ninf
  | fin _ _, pinf => mk 0
  | fin _ _, ninf => mk 0
  | fin a _, fin b _ => if b = 0 then infSign a else mk (a / b)

def sqrt : Fl f → Fl f
  | nan => nan
  | pinf => pinf
  | ninf => nan
  | fin a _ => if a < 0 then nan else ofGrid (f.sqrtq a) (f.sqrt_grid a)

def lt : Fl f → Fl f → Bool
  | nan, _ => false
  | _, nan => false
  | pinf, _ => false
  | _, ninf => false
  | ninf, _ => true
  | _, pinf => true
  | fin a _, fin b _ => decide (a < b)

def eq : Fl f → Fl f → Bool
  | nan, _ => false
  | _, nan => false
  | pinf, pinf => true
  | ninf, ninf => true
  | fin a _, fin b _ => decide (a = b)
  | _, _ => false

def isNaN : Fl f → Bool
  | nan => true
  | _ => false

def isInf : Fl f → Bool
  | pinf => true
  | ninf => true
  | _ => false

instance : FloatOps (Fl f) where
  add := add
  sub := sub
  mul := mul
  div := div
  neg := neg
  ofInt n := mk n
  half := mk (1 / 2)
  sqrt := sqrt
  cube a := mul (mul a a) a
  lt := lt
  eq := eq
  isNaN := isNaN
  isInf := isInf
  maxVal := .fin f.max ⟨f.grid_max, by rw [abs_of_pos f.max_pos]⟩
  eps := mk f.epsq

theorem ofInt_zero : (FloatOps.ofInt 0 : Fl f) =
    .fin 0 ⟨f.grid_zero, by rw [abs_zero]; exact f.max_pos.le⟩ := by
  show mk _ = _
  simp [mk, ofGrid, f.rnd_zero, f.max_pos.le]

theorem finite_iff (a : Fl f) : FloatOps.finite a = true ↔ ∃ q h, a = fin q h := by
  cases a <;> simp [FloatOps.finite, FloatOps.isNaN, FloatOps.isInf, isNaN, isInf]
  assumption

/-- the sign of an overflowed grid point -/
theorem lt_ofGrid_zero (q : ℚ) (h : f.Grid q) :
    lt (ofGrid q h) (FloatOps.ofInt 0) = decide (q < 0) := by
  rw [ofInt_zero]
  unfold ofGrid
  by_cases h' : |q| ≤ f.max
  · simp [h', lt]
  · rw [dif_neg h']
    by_cases h0 : 0 < q
    · rw [if_pos h0]; simp [lt, h0.le]
    · rw [if_neg h0]
      have hq : q ≠ 0 := by
        rintro rfl; exact h' (by rw [abs_zero]; exact f.max_pos.le)
      have : q < 0 := lt_of_le_of_ne (not_lt.mp h0) hq
      simp [lt, this]

instance : FloatLaws (Fl f) where
  lt_irrefl a := by cases a <;> simp [FloatOps.lt, lt]
  lt_trans a b c := by
    cases a <;> cases b <;> cases c <;> simp [FloatOps.lt, lt]
    exact lt_trans
  lt_negtrans a b c ha hb hc := by
    obtain ⟨p, hp, rfl⟩ := (finite_iff a).1 ha
    obtain ⟨q, hq, rfl⟩ := (finite_iff b).1 hb
    obtain ⟨r, hr, rfl⟩ := (finite_iff c).1 hc
    simp only [FloatOps.lt, lt, decide_eq_false_iff_not, not_lt]
    intro h1 h2; exact h2.trans h1
  sub_neg a b ha hb := by
    obtain ⟨p, hp, rfl⟩ := (finite_iff a).1 ha
    obtain ⟨q, hq, rfl⟩ := (finite_iff b).1 hb
    show lt (ofGrid (f.rnd (p - q)) (f.rnd_grid _)) _ = lt _ _
    rw [lt_ofGrid_zero]
    simp only [lt]
    rw [decide_eq_decide]
    constructor
    · intro h
      by_contra hle
      have : 0 ≤ f.rnd (p - q) := f.rnd_nonneg (by linarith)
      linarith
    · intro h
      have h1 : f.rnd (p - q) ≤ 0 := f.rnd_nonpos (by linarith)
      have h2 := f.sub_ne p q hp.1 hq.1 (ne_of_lt h)
      exact lt_of_le_of_ne h1 h2
  eq_spec a b ha hb := by
    obtain ⟨p, hp, rfl⟩ := (finite_iff a).1 ha
    obtain ⟨q, hq, rfl⟩ := (finite_iff b).1 hb
    simp only [FloatOps.eq, FloatOps.lt, eq, lt]
    rcases lt_trichotomy p q with h | h | h
    · simp [h, ne_of_lt h]
    · simp [h]
    · simp [h, (ne_of_lt h).symm]
  max_finite := rfl
  le_max a ha := by
    obtain ⟨p, hp, rfl⟩ := (finite_iff a).1 ha
    simp only [FloatOps.lt, FloatOps.maxVal, lt, decide_eq_false_iff_not, not_lt]
    exact (le_abs_self p).trans hp.2
  scalarMax_le _ h := h

@[simp] theorem scalarMax_eq : (FloatOps.scalarMax : Fl f) = FloatOps.maxVal := rfl

end Fl

/-- Square root of a non-negative rational, truncated to a multiple of `2^-k`. -/
def sqrtTrunc (k : ℕ) (q : ℚ) : ℚ := (Nat.sqrt (q * 4 ^ k).floor.toNat : ℚ) / 2 ^ k

theorem sqrtTrunc_nonneg (k : ℕ) (q : ℚ) : 0 ≤ sqrtTrunc k q := by unfold sqrtTrunc; positivity

theorem sqrtTrunc_mono (k : ℕ) {q r : ℚ} (h : q ≤ r) : sqrtTrunc k q ≤ sqrtTrunc k r := by
  unfold sqrtTrunc
  have h1 : q * 4 ^ k ≤ r * 4 ^ k := mul_le_mul_of_nonneg_right h (by positivity)
  have h2 : (q * 4 ^ k).floor ≤ (r * 4 ^ k).floor := Rat.le_floor_iff.mpr ((Rat.floor_le _).trans h1)
  have h3 := Nat.sqrt_le_sqrt (Int.toNat_le_toNat h2)
  have h4 : (Nat.sqrt (q * 4 ^ k).floor.toNat : ℚ) ≤ Nat.sqrt (r * 4 ^ k).floor.toNat := by exact_mod_cast h3
  exact div_le_div_of_nonneg_right h4 (by positivity)

/-- the truncation is the square root up to `2^-k` -/
theorem sqrtTrunc_spec (k : ℕ) {q : ℚ} (h : 0 ≤ q) :
    sqrtTrunc k q ^ 2 ≤ q ∧ q < (sqrtTrunc k q + 1 / 2 ^ k) ^ 2 := by
  unfold sqrtTrunc
  have h0 : 0 ≤ (q * 4 ^ k).floor := Rat.le_floor_iff.mpr (by push_cast; positivity)
  have h1 := Rat.floor_le (q * 4 ^ k)
  have h2 := Rat.lt_floor_add_one (q * 4 ^ k)
  have e : (((q * 4 ^ k).floor.toNat : ℕ) : ℚ) = ((q * 4 ^ k).floor : ℚ) := by
    have : (((q * 4 ^ k).floor.toNat : ℕ) : ℤ) = (q * 4 ^ k).floor := Int.toNat_of_nonneg h0
    exact_mod_cast this
  have h3 : ((Nat.sqrt (q * 4 ^ k).floor.toNat : ℕ) : ℚ) ^ 2 ≤ ((q * 4 ^ k).floor.toNat : ℕ) := by
    exact_mod_cast Nat.sqrt_le' _
  have h4 : (((q * 4 ^ k).floor.toNat : ℕ) : ℚ) + 1 ≤ ((Nat.sqrt (q * 4 ^ k).floor.toNat : ℕ) + 1 : ℚ) ^ 2 := by
    exact_mod_cast Nat.succ_le_succ_sqrt' _
  rw [e] at h3 h4
  push_cast at h2
  have h4k : (4 : ℚ) ^ k = (2 ^ k) ^ 2 := by rw [← pow_mul, mul_comm, pow_mul]; norm_num
  have hp : (0 : ℚ) < (2 ^ k) ^ 2 := by positivity
  rw [← add_div, div_pow, div_pow, div_le_iff₀ hp, lt_div_iff₀ hp, ← h4k]
  constructor <;> linarith

/-- Exact arithmetic on rationals up to `2^1024` (no rounding, but overflow and NaN; square roots are truncated). -/
def Fmt.exact : Fmt where
  Grid _ := True
  rnd q := q
  sqrtq := sqrtTrunc 600
  max := 2 ^ 1024
  epsq := 1 / 10 ^ 7
  rnd_grid _ := trivial
  rnd_id _ _ := rfl
  rnd_mono _ _ h := h
  rnd_neg _ := rfl
  sqrt_grid _ := trivial
  sqrt_mono _ _ h := sqrtTrunc_mono 600 h
  sqrt_nonneg := sqrtTrunc_nonneg 600
  grid_max := trivial
  max_pos := by positivity
  sub_ne a b _ _ h := by rwa [sub_ne_zero]

end Verif
