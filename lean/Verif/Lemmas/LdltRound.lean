import Verif.Model.EigenLDLT
import Verif.Num.Rounded
import Verif.Lemmas.RealLin
/-!
# Rounding errors of the LDLT decomposition: the factors
-/

set_option linter.unusedSectionVars false

namespace Verif
open FloatOps

section
variable {n : Nat} {u : ℝ} {r : Rnd u}

/-! ### Inner products -/

theorem foldl_near3 {α : Type} (hu : 0 ≤ u) (f g h : α → Rd r) (l : List α) :
    ∀ (k : ℕ) (acc : Rd r) (B S : ℝ), 2 ≤ k → Near u k acc.v B S →
      Near u (k + l.length) (l.foldl (fun a c => add a (mul (f c) (mul (g c) (h c)))) acc).v
        (B + (l.map fun c => (f c).v * ((g c).v * (h c).v)).sum) (S + (l.map fun c => |(f c).v * ((g c).v * (h c).v)|).sum) := by
  induction l with
  | nil => intro k acc B S _ hn; simpa using hn
  | cons c l ih =>
    intro k acc B S hk hn
    rw [List.foldl_cons, List.map_cons, List.map_cons, List.sum_cons, List.sum_cons, List.length_cons]
    have h1 : Near u 1 (r.rnd ((g c).v * (h c).v)) ((g c).v * (h c).v) |(g c).v * (h c).v| := (Near.exact 0 hu _).rnd hu r
    have h2 : Near u 2 (r.rnd ((f c).v * r.rnd ((g c).v * (h c).v))) ((f c).v * ((g c).v * (h c).v)) |(f c).v * ((g c).v * (h c).v)| := by
      have := (h1.const_mul (f c).v).rnd hu r
      rwa [← abs_mul] at this
    have h3 : Near u (k + 1) (add acc (mul (f c) (mul (g c) (h c)))).v (B + (f c).v * ((g c).v * (h c).v)) (S + |(f c).v * ((g c).v * (h c).v)|) := by
      simp only [Rd.add_v, Rd.mul_v]
      exact (hn.add (h2.mono hu hk)).rnd hu r
    have := ih (k + 1) _ _ _ (by omega) h3
    rw [show k + (l.length + 1) = k + 1 + l.length by omega, ← add_assoc, ← add_assoc]
    exact this

theorem foldl_near2 {α : Type} (hu : 0 ≤ u) (f g : α → Rd r) (l : List α) :
    ∀ (k : ℕ) (acc : Rd r) (B S : ℝ), 1 ≤ k → Near u k acc.v B S →
      Near u (k + l.length) (l.foldl (fun a c => add a (mul (f c) (g c))) acc).v
        (B + (l.map fun c => (f c).v * (g c).v).sum) (S + (l.map fun c => |(f c).v * (g c).v|).sum) := by
  induction l with
  | nil => intro k acc B S _ hn; simpa using hn
  | cons c l ih =>
    intro k acc B S hk hn
    rw [List.foldl_cons, List.map_cons, List.map_cons, List.sum_cons, List.sum_cons, List.length_cons]
    have h1 : Near u 1 (r.rnd ((f c).v * (g c).v)) ((f c).v * (g c).v) |(f c).v * (g c).v| := (Near.exact 0 hu _).rnd hu r
    have h3 : Near u (k + 1) (add acc (mul (f c) (g c))).v (B + (f c).v * (g c).v) (S + |(f c).v * (g c).v|) := by
      simp only [Rd.add_v, Rd.mul_v]
      exact (hn.add (h1.mono hu hk)).rnd hu r
    have := ih (k + 1) _ _ _ (by omega) h3
    rw [show k + (l.length + 1) = k + 1 + l.length by omega, ← add_assoc, ← add_assoc]
    exact this

/-! ### The columns as vectors -/

/-- the columns with the pivots and the zeros filled in: a list of pivots and vectors -/
def fullCols (prev : List (Fin n)) : List (LdltCol (Rd r) n) → List (ℝ × Vec ℝ n)
  | [] => []
  | c :: cs => (c.d.v, fun i => if i = c.p then 1 else if i ∈ prev then 0 else (c.l i).v) :: fullCols (prev ++ [c.p]) cs

/-- `L D Lᵀ` -/
def ldM (ws : List (ℝ × Vec ℝ n)) (i j : Fin n) : ℝ := (ws.map fun w => w.1 * w.2 i * w.2 j).sum

/-- `|L| |D| |L|ᵀ` -/
def ldAbs (ws : List (ℝ × Vec ℝ n)) (i j : Fin n) : ℝ := (ws.map fun w => |w.1 * w.2 i * w.2 j|).sum

theorem fullCols_snoc (cs : List (LdltCol (Rd r) n)) (c : LdltCol (Rd r) n) : ∀ prev : List (Fin n),
    fullCols prev (cs ++ [c]) = fullCols prev cs ++ [(c.d.v, fun i => if i = c.p then 1 else if i ∈ prev ++ cs.map (·.p) then 0 else (c.l i).v)] := by
  induction cs with
  | nil => intro prev; simp [fullCols]
  | cons c' cs ih => intro prev; simp [fullCols, ih, List.append_assoc]

theorem ldM_append (a b : List (ℝ × Vec ℝ n)) (i j : Fin n) : ldM (a ++ b) i j = ldM a i j + ldM b i j := by
  simp [ldM]

theorem ldAbs_append (a b : List (ℝ × Vec ℝ n)) (i j : Fin n) : ldAbs (a ++ b) i j = ldAbs a i j + ldAbs b i j := by
  simp [ldAbs]

theorem ldM_sym (ws : List (ℝ × Vec ℝ n)) (i j : Fin n) : ldM ws i j = ldM ws j i := by
  unfold ldM; congr 2; funext w; ring

theorem ldAbs_sym (ws : List (ℝ × Vec ℝ n)) (i j : Fin n) : ldAbs ws i j = ldAbs ws j i := by
  unfold ldAbs; congr 2; funext w; rw [mul_right_comm]

theorem ldAbs_nonneg (ws : List (ℝ × Vec ℝ n)) (i j : Fin n) : 0 ≤ ldAbs ws i j := by
  unfold ldAbs
  refine List.sum_nonneg fun x hx => ?_
  obtain ⟨w, -, rfl⟩ := List.mem_map.1 hx
  exact abs_nonneg _

theorem abs_ldM_le (ws : List (ℝ × Vec ℝ n)) (i j : Fin n) : |ldM ws i j| ≤ ldAbs ws i j := by
  induction ws with
  | nil => simp [ldM, ldAbs]
  | cons w ws ih =>
    simp only [ldM, ldAbs, List.map_cons, List.sum_cons] at ih ⊢
    exact (abs_add_le _ _).trans (by linarith)

/-- with positive pivots the diagonal has no cancellation -/
theorem ldM_diag {ws : List (ℝ × Vec ℝ n)} (h : ∀ w ∈ ws, 0 < w.1) (i : Fin n) : ldAbs ws i i = ldM ws i i := by
  induction ws with
  | nil => simp [ldM, ldAbs]
  | cons w ws ih =>
    have := ih fun w hw => h w (List.mem_cons_of_mem _ hw)
    simp only [ldM, ldAbs, List.map_cons, List.sum_cons] at this ⊢
    have h0 : 0 ≤ w.1 * w.2 i * w.2 i := by
      have := h w List.mem_cons_self
      rw [mul_assoc]; exact mul_nonneg this.le (mul_self_nonneg _)
    rw [this, abs_of_nonneg h0]

theorem ldM_diag_nonneg {ws : List (ℝ × Vec ℝ n)} (h : ∀ w ∈ ws, 0 < w.1) (i : Fin n) : 0 ≤ ldM ws i i := by
  rw [← ldM_diag h]; exact ldAbs_nonneg _ _ _

/-- the arithmetic-geometric mean inequality, column by column -/
theorem ldAbs_amgm {ws : List (ℝ × Vec ℝ n)} (h : ∀ w ∈ ws, 0 < w.1) (i j : Fin n) (a b : ℝ) :
    2 * (ldAbs ws i j * (|a| * |b|)) ≤ ldM ws i i * a ^ 2 + ldM ws j j * b ^ 2 := by
  induction ws with
  | nil => simp [ldM, ldAbs]
  | cons w ws ih =>
    have := ih fun w hw => h w (List.mem_cons_of_mem _ hw)
    simp only [ldM, ldAbs, List.map_cons, List.sum_cons] at this ⊢
    have hd := h w List.mem_cons_self
    have h1 : 2 * (|w.1 * w.2 i * w.2 j| * (|a| * |b|)) ≤ w.1 * w.2 i * w.2 i * a ^ 2 + w.1 * w.2 j * w.2 j * b ^ 2 := by
      rw [abs_mul, abs_mul, abs_of_pos hd]
      have h2 := two_mul_le_add_sq (|w.2 i| * |a|) (|w.2 j| * |b|)
      have e1 : (|w.2 i| * |a|) ^ 2 = w.2 i ^ 2 * a ^ 2 := by rw [mul_pow, sq_abs, sq_abs]
      have e2 : (|w.2 j| * |b|) ^ 2 = w.2 j ^ 2 * b ^ 2 := by rw [mul_pow, sq_abs, sq_abs]
      rw [e1, e2] at h2
      have := mul_le_mul_of_nonneg_left h2 hd.le
      linarith
    linarith

/-- Cauchy-Schwarz -/
theorem ldAbs_cs {ws : List (ℝ × Vec ℝ n)} (h : ∀ w ∈ ws, 0 < w.1) (i j : Fin n) : ldAbs ws i j ≤ √(ldM ws i i) * √(ldM ws j j) := by
  have hi := ldM_diag_nonneg h i
  have hj := ldM_diag_nonneg h j
  have h0 := ldAbs_nonneg ws i j
  rcases hi.eq_or_lt with e | hi'
  · have h1 := ldAbs_amgm h i j ((ldM ws j j + 1) / 1) (ldAbs ws i j / (ldM ws j j + 1))
    rw [← e, abs_of_nonneg (by positivity), abs_of_nonneg (by positivity)] at h1
    have h2 : (ldM ws j j + 1) / 1 * (ldAbs ws i j / (ldM ws j j + 1)) = ldAbs ws i j := by field_simp
    rw [h2] at h1
    have h3 : ldM ws j j * (ldAbs ws i j / (ldM ws j j + 1)) ^ 2 ≤ ldAbs ws i j ^ 2 := by
      rw [div_pow, ← mul_div_assoc, div_le_iff₀ (by positivity)]
      have : ldM ws j j ≤ (ldM ws j j + 1) ^ 2 := by nlinarith
      nlinarith [mul_nonneg (sq_nonneg (ldAbs ws i j)) (sub_nonneg.2 this)]
    rw [← e, Real.sqrt_zero, zero_mul]
    nlinarith
  · rcases hj.eq_or_lt with e | hj'
    · have h1 := ldAbs_amgm h i j (ldAbs ws i j / (ldM ws i i + 1)) ((ldM ws i i + 1) / 1)
      rw [← e, abs_of_nonneg (by positivity), abs_of_nonneg (by positivity)] at h1
      have h2 : ldAbs ws i j / (ldM ws i i + 1) * ((ldM ws i i + 1) / 1) = ldAbs ws i j := by field_simp
      rw [h2] at h1
      have h3 : ldM ws i i * (ldAbs ws i j / (ldM ws i i + 1)) ^ 2 ≤ ldAbs ws i j ^ 2 := by
        rw [div_pow, ← mul_div_assoc, div_le_iff₀ (by positivity)]
        have : ldM ws i i ≤ (ldM ws i i + 1) ^ 2 := by nlinarith
        nlinarith [mul_nonneg (sq_nonneg (ldAbs ws i j)) (sub_nonneg.2 this)]
      rw [← e, Real.sqrt_zero, mul_zero]
      nlinarith
    · have h1 := ldAbs_amgm h i j (√(ldM ws j j)) (√(ldM ws i i))
      rw [abs_of_nonneg (Real.sqrt_nonneg _), abs_of_nonneg (Real.sqrt_nonneg _), Real.sq_sqrt hi, Real.sq_sqrt hj] at h1
      have hs : 0 < √(ldM ws i i) * √(ldM ws j j) := mul_pos (Real.sqrt_pos.2 hi') (Real.sqrt_pos.2 hj')
      have e2 : ldM ws i i * ldM ws j j = (√(ldM ws i i) * √(ldM ws j j)) * (√(ldM ws i i) * √(ldM ws j j)) := by
        rw [mul_mul_mul_comm, Real.mul_self_sqrt hi, Real.mul_self_sqrt hj]
      have h4 : (ldAbs ws i j) * (√(ldM ws i i) * √(ldM ws j j)) ≤ (√(ldM ws i i) * √(ldM ws j j)) * (√(ldM ws i i) * √(ldM ws j j)) := by
        rw [← e2]
        nlinarith
      exact le_of_mul_le_mul_right h4 hs

/-- outside of the pivots the filled columns are the columns -/
theorem fullCols_out {i j : Fin n} : ∀ (cs : List (LdltCol (Rd r) n)) (prev : List (Fin n)), i ∉ prev ++ cs.map (·.p) → j ∉ prev ++ cs.map (·.p) →
    ldM (fullCols prev cs) i j = (cs.map fun c => (c.l i).v * (c.d.v * (c.l j).v)).sum ∧
    ldAbs (fullCols prev cs) i j = (cs.map fun c => |(c.l i).v * (c.d.v * (c.l j).v)|).sum := by
  intro cs
  induction cs with
  | nil => intro prev _ _; simp [fullCols, ldM, ldAbs]
  | cons c cs ih =>
    intro prev hi hj
    have hi' : i ∉ (prev ++ [c.p]) ++ cs.map (·.p) := by simpa [List.append_assoc] using hi
    have hj' : j ∉ (prev ++ [c.p]) ++ cs.map (·.p) := by simpa [List.append_assoc] using hj
    obtain ⟨h1, h2⟩ := ih (prev ++ [c.p]) hi' hj'
    simp only [List.map_cons, List.mem_append, List.mem_cons, not_or] at hi hj
    simp only [ldM, ldAbs, fullCols, List.map_cons, List.sum_cons, if_neg hi.2.1, if_neg hj.2.1, if_neg hi.1, if_neg hj.1] at h1 h2 ⊢
    rw [h1, h2]
    constructor
    · ring
    · congr 2; ring

theorem ldltDot_near (hu : 0 ≤ u) (done : List (LdltCol (Rd r) n)) {i j : Fin n} (hi : i ∉ done.map (·.p)) (hj : j ∉ done.map (·.p)) :
    Near u (done.length + 2) (ldltDot done i j).v (ldM (fullCols [] done) i j) (ldAbs (fullCols [] done) i j) := by
  obtain ⟨h1, h2⟩ := fullCols_out done [] (by simpa using hi) (by simpa using hj)
  have h0 : Near u 2 (ofInt 0 : Rd r).v 0 0 := by
    rw [Rd.ofInt_zero_v]
    simpa using Near.exact (u := u) 2 hu 0
  have := foldl_near3 hu (fun c : LdltCol (Rd r) n => c.l i) (fun c => c.d) (fun c => c.l j) done 2 (ofInt 0) 0 0 le_rfl h0
  rw [h1, h2, add_comm done.length]
  simpa [ldltDot] using this

end
end Verif
