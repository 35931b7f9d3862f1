import Verif.Model.NumDiffFl
import Verif.Num.Real
import Verif.Num.Round
import Verif.Lemmas.Works
import Mathlib.Tactic.Abel
/-!
# Numerical differentiation in floating point: lemmas
-/

set_option linter.unusedSectionVars false

namespace Verif
open FloatOps Loss

section
variable {F X : Type} [FloatOps F] {n m : Nat} (plus : X → Vec F n → X) (f : X → Vec F m) (x : X) (method : Method) (h : F)

/-- the vector with `t` at `r` and the literal 0 elsewhere -/
def unitF (r : Fin n) (t : F) : Vec F n := fun i => if i = r then t else ofInt 0

/-- the difference quotient of `NumEval` -/
def quotF (r : Fin n) (i : Fin m) : F :=
  match method with
  | .forward => div (sub (f (plus x (unitF r h)) i) (f x i)) h
  | .central => div (sub (f (plus x (unitF r h)) i) (f (plus x (unitF r (neg h))) i)) (mul (ofInt 2) h)
  | .fastCentral =>
    div (sub (f (plus x (unitF r h)) i) (f (plus (plus x (unitF r h)) (unitF r (mul (ofInt (-2)) h))) i)) (mul (ofInt 2) h)

theorem numLoopF_spec : ∀ k ≤ n, ∀ J0 : JMat F m n,
    let s := ((List.finRange n).take k).foldl (numStepF plus f x method h (f x)) (fun _ => ofInt 0, J0)
    (∀ i : Fin n, i.val + 1 ≠ k → s.1 i = ofInt 0) ∧
    (∀ i (c : Fin n), s.2 i c = if c.val < k then quotF plus f x method h c i else J0 i c) := by
  intro k
  induction k with
  | zero => intro _ J0; exact ⟨fun _ _ => rfl, fun _ _ => by simp⟩
  | succ k ih =>
    intro hk J0
    obtain ⟨h1, h2⟩ := ih (by omega) J0
    have hlt : k < n := by omega
    have et : (List.finRange n).take (k + 1) = (List.finRange n).take k ++ [⟨k, hlt⟩] := by
      rw [List.take_add_one]
      simp [hlt]
    simp only [et, List.foldl_append, List.foldl_cons, List.foldl_nil]
    generalize ((List.finRange n).take k).foldl (numStepF plus f x method h (f x)) (fun _ => ofInt 0, J0) = s at h1 h2
    set r : Fin n := ⟨k, hlt⟩ with hr
    have hclear : ∀ t, Function.update (fun i : Fin n => if i.val + 1 = r.val then ofInt 0 else s.1 i) r t = unitF r t := by
      intro t
      funext i
      unfold unitF Function.update
      by_cases hi : i = r
      · subst hi; simp
      · simp only [hi, dite_false, if_false]
        split
        · rfl
        · rename_i hne
          exact h1 i hne
    have hup : ∀ u v : F, Function.update (unitF r u) r v = unitF r v := by
      intro u v
      funext i
      unfold unitF Function.update
      by_cases hi : i = r
      · subst hi; simp
      · simp [hi]
    have hJ : ∀ (q : Vec F m), (∀ i, q i = quotF plus f x method h r i) → ∀ i (c : Fin n),
        (if c = r then q i else s.2 i c) = if c.val < k + 1 then quotF plus f x method h c i else J0 i c := by
      intro q hq i c
      by_cases hc : c = r
      · subst hc
        rw [if_pos rfl, if_pos (by simp [hr])]
        exact hq i
      · have hcv : c.val ≠ k := fun e => hc (Fin.ext e)
        rw [if_neg hc, h2]
        by_cases hlt : c.val < k
        · rw [if_pos hlt, if_pos (by omega)]
        · rw [if_neg hlt, if_neg (by omega)]
    have hdx : ∀ v, ∀ i : Fin n, i.val + 1 ≠ k + 1 → unitF r v i = (ofInt 0 : F) := by
      intro v i hi
      have : i ≠ r := fun e => hi (by rw [e])
      simp [unitF, this]
    cases method with
    | forward =>
      refine ⟨?_, ?_⟩
      · simp only [numStepF, hclear]; exact hdx _
      · simp only [numStepF, hclear]
        exact hJ _ (fun i => by simp [quotF])
    | central =>
      refine ⟨?_, ?_⟩
      · simp only [numStepF, hclear, hup]; exact hdx _
      · simp only [numStepF, hclear, hup]
        exact hJ _ (fun i => by simp [quotF])
    | fastCentral =>
      refine ⟨?_, ?_⟩
      · simp only [numStepF, hclear, hup]; exact hdx _
      · simp only [numStepF, hclear, hup]
        exact hJ _ (fun i => by simp [quotF])

theorem numEvalF_spec (J0 : JMat F m n) (i : Fin m) (r : Fin n) :
    (numEvalF plus f x method h J0).2 i r = quotF plus f x method h r i := by
  have key := (numLoopF_spec plus f x method h n le_rfl J0).2 i r
  have ht : (List.finRange n).take n = List.finRange n := List.take_of_length_le (by simp)
  rw [ht] at key
  rw [numEvalF]
  simp only [key, r.isLt, if_true]

end

/-! ### Adding a step that is too small -/

section
variable {p : ℕ} {emin : ℤ}

/-- numbers of magnitude at least `2^k` are multiples of `2^(k + 1 - p)` -/
theorem gridBin_coarse {k : ℤ} {q : ℚ} (h : GridBin p emin q) (hq : 2 ^ k ≤ |q|) : ∃ a : ℤ, q = a * 2 ^ (k + 1 - p) := by
  obtain ⟨m, e, hm, -, rfl⟩ := h
  have he : k + 1 - p ≤ e := by
    by_contra hlt
    have h1 : e ≤ k - p := by omega
    have h2 : |(m : ℚ) * 2 ^ e| < 2 ^ (p : ℤ) * 2 ^ (k - p : ℤ) := by
      rw [abs_mul, abs_of_pos (two_zpow_pos e)]
      have : |(m : ℚ)| < 2 ^ (p : ℤ) := by
        rw [zpow_natCast]; exact_mod_cast hm
      exact mul_lt_mul this (zpow_le_zpow_right₀ (by norm_num) h1) (two_zpow_pos e) (by positivity)
    rw [← zpow_add₀ (by norm_num), show (p : ℤ) + (k - p) = k by ring] at h2
    exact absurd hq (not_le.mpr h2)
  refine ⟨m * 2 ^ (e - (k + 1 - p)).toNat, ?_⟩
  have e1 : ((e - (k + 1 - p)).toNat : ℤ) = e - (k + 1 - p) := Int.toNat_of_nonneg (by omega)
  push_cast
  rw [← zpow_natCast (2 : ℚ), e1, mul_assoc, ← zpow_add₀ (by norm_num)]
  congr 2; ring

/-- a step below half a unit in the last place disappears -/
theorem rndBin_absorb (hp : p ≠ 0) {k : ℤ} (hk : emin ≤ k) {q d : ℚ} (hg : GridBin p emin q) (hq : 2 ^ k < |q|) (hd : |d| < 2 ^ (k - p)) :
    rndBin p emin (q + d) = q := by
  wlog hpos : 0 < q generalizing q d with H
  · have hq0 : q ≠ 0 := by
      rintro rfl
      rw [abs_zero] at hq
      exact absurd hq (not_lt.mpr (two_zpow_pos k).le)
    have := H (q := -q) (d := -d) (gridBin_neg hg) (by rwa [abs_neg]) (by rwa [abs_neg])
      (by have := lt_of_le_of_ne (not_lt.mp hpos) hq0; linarith)
    rw [← neg_add, rndBin_neg] at this
    exact neg_injective this
  rw [abs_of_pos hpos] at hq
  have hU := two_zpow_pos (k + 1 - p)
  have hhalf : (2 : ℚ) ^ (k - p : ℤ) = 2 ^ (k + 1 - p : ℤ) / 2 := by
    rw [show k + 1 - (p : ℤ) = (k - p) + 1 by ring, zpow_add₀ (by norm_num), zpow_one]; ring
  obtain ⟨a, ha⟩ := gridBin_coarse hg (k := k) (by rw [abs_of_pos hpos]; exact hq.le)
  have h2k : GridBin p emin (2 ^ k) := ⟨1, k, by
    have : (1 : ℤ) < 2 ^ p := one_lt_pow₀ (by norm_num) hp
    simpa using this, hk, by simp⟩
  obtain ⟨b, hb⟩ := gridBin_coarse h2k (k := k) (by rw [abs_of_pos (two_zpow_pos k)])
  -- the neighbour of `2^k` is at least one unit away
  have hab : b + 1 ≤ a := by
    have : (b : ℚ) * 2 ^ (k + 1 - p : ℤ) < a * 2 ^ (k + 1 - p : ℤ) := by rw [← ha, ← hb]; exact hq
    have : (b : ℚ) < a := lt_of_mul_lt_mul_right this hU.le
    have : b < a := by exact_mod_cast this
    omega
  have hgap : (2 : ℚ) ^ k + 2 ^ (k + 1 - p : ℤ) ≤ q := by
    rw [ha]
    nth_rw 1 [hb]
    have : ((b : ℚ) + 1) ≤ a := by exact_mod_cast hab
    nlinarith
  have hd' := abs_lt.mp hd
  -- the rounded sum is above `2^k` and closer than one unit
  have hlow : (2 : ℚ) ^ k ≤ rndBin p emin (q + d) := by
    rw [← rndBin_id h2k]
    exact rndBin_mono hp (by rw [hhalf] at hd'; linarith [hd'.1])
  have hnear := rndBin_nearest hp (q + d) hg
  rw [show q - (q + d) = -d by ring, abs_neg] at hnear
  have hclose : |rndBin p emin (q + d) - q| < 2 ^ (k + 1 - p : ℤ) := by
    have : |rndBin p emin (q + d) - q| ≤ |rndBin p emin (q + d) - (q + d)| + |d| := by
      have := abs_add_le (rndBin p emin (q + d) - (q + d)) d
      rwa [show rndBin p emin (q + d) - (q + d) + d = rndBin p emin (q + d) - q by ring] at this
    rw [hhalf] at hd
    linarith
  obtain ⟨c, hc⟩ := gridBin_coarse (rndBin_grid (emin := emin) hp (q + d)) (k := k) (by rw [abs_of_pos (lt_of_lt_of_le (two_zpow_pos k) hlow)]; exact hlow)
  rw [hc, ha] at hclose ⊢
  rw [← sub_mul, abs_mul, abs_of_pos hU] at hclose
  have h1 : |(c : ℚ) - a| < 1 := by
    by_contra hge
    rw [not_lt] at hge
    nlinarith
  have : c = a := by
    have h2 : |c - a| < 1 := by exact_mod_cast h1
    have := abs_lt.mp h2
    omega
  rw [this]

end

section
variable {p : ℕ} {hp : p ≠ 0} {emin : ℤ} {hem : emin ≤ -emin - 2 * p + 3} {ep : ℚ}

theorem Fl.add_absorb {k : ℤ} (hk : emin ≤ k) {a b : Fl (Fmt.ieee p hp emin hem ep)} {q d : ℚ} {hq hd} (ha : a = .fin q hq) (hb : b = .fin d hd)
    (hqk : 2 ^ k < |q|) (hdk : |d| < 2 ^ (k - p)) : FloatOps.add a b = a := by
  subst ha hb
  have h := rndBin_absorb hp hk hq.1 hqk hdk
  show Fl.mk (q + d) = _
  unfold Fl.mk Fl.ofGrid
  have e : (Fmt.ieee p hp emin hem ep).rnd (q + d) = q := h
  simp only [e]
  rw [dif_pos hq.2]

end

section
variable {f : Fmt}

/-- the zero of a format -/
theorem Fl.ofInt_zero' : ∃ h, (ofInt 0 : Fl f) = .fin 0 h := by
  show ∃ h, Fl.mk ((0 : Int) : ℚ) = _
  unfold Fl.mk Fl.ofGrid
  have e : f.rnd ((0 : Int) : ℚ) = 0 := by rw [Int.cast_zero, f.rnd_zero]
  simp only [e]
  exact ⟨⟨f.grid_zero, by simp [f.max_pos.le]⟩, by rw [dif_pos (by simp [f.max_pos.le])]⟩

theorem Fl.mk_zero : (Fl.mk 0 : Fl f) = ofInt 0 := by
  show _ = Fl.mk ((0 : Int) : ℚ)
  rw [Int.cast_zero]

theorem Fl.mk_grid {q : ℚ} (hq : f.Grid q ∧ |q| ≤ f.max) : (Fl.mk q : Fl f) = .fin q hq := by
  unfold Fl.mk Fl.ofGrid
  have e : f.rnd q = q := f.rnd_id q hq.1
  simp only [e]
  rw [dif_pos hq.2]

theorem Fl.add_zero_finite {a : Fl f} (h : finite a = true) : FloatOps.add a (ofInt 0) = a := by
  obtain ⟨q, hq, rfl⟩ := (Fl.finite_iff a).mp h
  obtain ⟨hz, ez⟩ := Fl.ofInt_zero' (f := f)
  rw [ez]
  show Fl.mk (q + 0) = _
  rw [add_zero, Fl.mk_grid hq]

theorem Fl.sub_self' {a : Fl f} (h : finite a = true) : FloatOps.sub a a = ofInt 0 := by
  obtain ⟨q, hq, rfl⟩ := (Fl.finite_iff a).mp h
  show Fl.mk (q - q) = _
  rw [sub_self, Fl.mk_zero]

theorem Fl.mul_zero_left {a : Fl f} (h : finite a = true) : FloatOps.mul (ofInt 0) a = ofInt 0 := by
  obtain ⟨q, hq, rfl⟩ := (Fl.finite_iff a).mp h
  obtain ⟨hz, ez⟩ := Fl.ofInt_zero' (f := f)
  rw [ez]
  show Fl.mk (0 * q) = _
  rw [zero_mul, Fl.mk_zero, ez]

theorem Fl.mul_zero_right {a : Fl f} (h : finite a = true) : FloatOps.mul a (ofInt 0) = ofInt 0 := by
  obtain ⟨q, hq, rfl⟩ := (Fl.finite_iff a).mp h
  obtain ⟨hz, ez⟩ := Fl.ofInt_zero' (f := f)
  rw [ez]
  show Fl.mk (q * 0) = _
  rw [mul_zero, Fl.mk_zero, ez]

theorem Fl.zero_div' {a : Fl f} {q : ℚ} {hq} (h : a = .fin q hq) (h0 : q ≠ 0) : FloatOps.div (ofInt 0) a = ofInt 0 := by
  subst h
  obtain ⟨hz, ez⟩ := Fl.ofInt_zero' (f := f)
  rw [ez]
  show (if q = 0 then Fl.infSign 0 else Fl.mk (0 / q)) = _
  rw [if_neg h0, zero_div, Fl.mk_zero, ez]

theorem Fl.neg_zero' : FloatOps.neg (ofInt 0 : Fl f) = ofInt 0 := by
  obtain ⟨hz, ez⟩ := Fl.ofInt_zero' (f := f)
  rw [ez]
  show Fl.fin (-0) _ = _
  congr 1

theorem Fl.zero_finite : finite (ofInt 0 : Fl f) = true := by
  rw [Fl.finite_iff]
  obtain ⟨hz, ez⟩ := Fl.ofInt_zero' (f := f)
  exact ⟨0, hz, ez⟩

theorem sumF_zero {n : Nat} (v : Vec (Fl f) n) (h : ∀ i, v i = ofInt 0) : sumF v = ofInt 0 := by
  induction n with
  | zero => rfl
  | succ n ih =>
    unfold sumF
    rw [ih _ (fun i => h _), h, Fl.add_zero_finite Fl.zero_finite]

end
end Verif
