import Verif.Num.Fl
/-!
# Signs of floating point results
-/

namespace Verif
namespace Fl
variable {f : Fmt}

/-- not NaN and not negative -/
def NonNeg : Fl f → Prop
  | nan => False
  | pinf => True
  | ninf => False
  | fin q _ => 0 ≤ q

/-- finite and positive -/
def FinPos (a : Fl f) : Prop := ∃ q h, a = fin q h ∧ 0 < q

/-- finite, or positive infinity, and positive -/
def Pos (a : Fl f) : Prop := a = pinf ∨ FinPos a

theorem Pos.nonNeg {a : Fl f} (h : Pos a) : NonNeg a := by
  rcases h with rfl | ⟨q, h, rfl, hq⟩
  · trivial
  · exact hq.le

theorem ofGrid_nonNeg {q : ℚ} (h : f.Grid q) (hq : 0 ≤ q) : NonNeg (ofGrid q h) := by
  unfold ofGrid
  split
  · exact hq
  next h' =>
    have : 0 < q := by
      rcases eq_or_lt_of_le hq with rfl | h0
      · exfalso; exact h' (by rw [abs_zero]; exact f.max_pos.le)
      · exact h0
    rw [if_pos this]; trivial

theorem mk_nonNeg {q : ℚ} (hq : 0 ≤ q) : NonNeg (mk q : Fl f) :=
  ofGrid_nonNeg _ (f.rnd_nonneg hq)

theorem mul_nonNeg {a b : Fl f} (ha : FinPos a) (hb : NonNeg b) : NonNeg (mul a b) := by
  obtain ⟨q, h, rfl, hq⟩ := ha
  cases b with
  | nan => exact hb.elim
  | ninf => exact hb.elim
  | pinf => show NonNeg (infSign q); unfold infSign; rw [if_pos hq]; trivial
  | fin r h' => exact mk_nonNeg (mul_nonneg hq.le hb)

theorem div_nonNeg {a b : Fl f} (ha : FinPos a) (hb : NonNeg b) : NonNeg (div a b) := by
  obtain ⟨q, h, rfl, hq⟩ := ha
  cases b with
  | nan => exact hb.elim
  | ninf => exact hb.elim
  | pinf => exact mk_nonNeg le_rfl
  | fin r h' =>
    show NonNeg (if r = 0 then infSign q else mk (q / r))
    split
    · unfold infSign; rw [if_pos hq]; trivial
    · exact mk_nonNeg (div_nonneg hq.le hb)

theorem NonNeg.div_pos {a b : Fl f} (ha : NonNeg a) (hb : FinPos b) : NonNeg (div a b) := by
  obtain ⟨r, h', rfl, hr⟩ := hb
  cases a with
  | nan => exact ha.elim
  | ninf => exact ha.elim
  | pinf => show NonNeg (if r < 0 then ninf else pinf); rw [if_neg (by linarith)]; trivial
  | fin q h =>
    show NonNeg (if r = 0 then infSign q else mk (q / r))
    rw [if_neg hr.ne']
    exact mk_nonNeg (div_nonneg ha hr.le)

theorem NonNeg.mul_pos {a b : Fl f} (ha : NonNeg a) (hb : FinPos b) : NonNeg (mul a b) := by
  obtain ⟨r, h', rfl, hr⟩ := hb
  cases a with
  | nan => exact ha.elim
  | ninf => exact ha.elim
  | pinf => show NonNeg (infSign r); unfold infSign; rw [if_pos hr]; trivial
  | fin q h => exact mk_nonNeg (mul_nonneg ha hr.le)

theorem NonNeg.not_lt {a : Fl f} (ha : NonNeg a) : FloatOps.lt a (FloatOps.ofInt 0) = false := by
  rw [ofInt_zero]
  cases a with
  | nan => exact ha.elim
  | ninf => exact ha.elim
  | pinf => rfl
  | fin q h => have : 0 ≤ q := ha; simpa [FloatOps.lt, lt] using this

theorem lt_zero_iff (a : Fl f) : FloatOps.lt (FloatOps.ofInt 0) a = true ↔ Pos a := by
  rw [ofInt_zero]
  cases a with
  | nan => simp [FloatOps.lt, lt, Pos, FinPos]
  | pinf => simp [FloatOps.lt, lt, Pos]
  | ninf => simp [FloatOps.lt, lt, Pos, FinPos]
  | fin q h => simp [FloatOps.lt, lt, Pos, FinPos]; intro; exact h

/-- 1 and 2 are numbers of the format -/
def HasTwo (f : Fmt) : Prop := f.Grid 1 ∧ f.Grid 2 ∧ 2 ≤ f.max

theorem HasTwo.one (h : HasTwo f) : (FloatOps.ofInt 1 : Fl f) =
    fin 1 ⟨h.1, by rw [abs_one]; linarith [h.2.2]⟩ := by
  show mk _ = _
  have e : f.rnd ((1 : ℤ) : ℚ) = 1 := by push_cast; exact f.rnd_id 1 h.1
  unfold mk ofGrid
  simp only [e, abs_one]
  rw [dif_pos (by linarith [h.2.2])]

theorem HasTwo.two (h : HasTwo f) : (FloatOps.ofInt 2 : Fl f) =
    fin 2 ⟨h.2.1, by rw [abs_of_pos (by norm_num)]; exact h.2.2⟩ := by
  show mk _ = _
  have e : f.rnd ((2 : ℤ) : ℚ) = 2 := by push_cast; exact f.rnd_id 2 h.2.1
  unfold mk ofGrid
  simp only [e]
  rw [dif_pos (by rw [abs_of_pos (by norm_num)]; exact h.2.2)]

/-- at least -1 (NaN allowed) -/
def GeM1 : Fl f → Prop
  | nan => True
  | pinf => True
  | ninf => False
  | fin q _ => -1 ≤ q

theorem mk_geM1 (h : HasTwo f) {q : ℚ} (hq : -1 ≤ q) : GeM1 (mk q : Fl f) := by
  have h1 : -1 ≤ f.rnd q := by
    have := f.rnd_mono _ _ hq
    rwa [f.rnd_id (-1) (by have := f.grid_neg h.1; simpa using this)] at this
  unfold mk ofGrid
  split
  · exact h1
  next h' =>
    split
    · trivial
    next h0 =>
      exfalso
      apply h'
      rw [abs_le]
      constructor <;> linarith [h.2.2, not_lt.mp h0]

/-- the quality term of `GoodStep` is at most 2 and never `+∞` for qualities that are not negative -/
theorem quality_bounded (h : HasTwo f) {q : Fl f} (hq : FloatOps.lt q (FloatOps.ofInt 0) = false) :
    (FloatOps.sub (FloatOps.ofInt 1)
      (FloatOps.cube (FloatOps.sub (FloatOps.mul (FloatOps.ofInt 2) q) (FloatOps.ofInt 1))) : Fl f) ≠ pinf := by
  rw [h.one, h.two]
  have hv : (∃ q' h', mul (fin 2 ⟨h.2.1, by rw [abs_of_pos (by norm_num)]; exact h.2.2⟩) q = fin q' h' ∧ 0 ≤ q') ∨
      mul (fin 2 ⟨h.2.1, by rw [abs_of_pos (by norm_num)]; exact h.2.2⟩) q = pinf ∨
      mul (fin 2 ⟨h.2.1, by rw [abs_of_pos (by norm_num)]; exact h.2.2⟩) q = nan := by
    cases q with
    | nan => right; right; rfl
    | pinf => right; left; show infSign 2 = _; unfold infSign; norm_num
    | ninf => rw [ofInt_zero] at hq; cases hq
    | fin r hr =>
      rw [ofInt_zero] at hq
      have hr0 : 0 ≤ r := by simpa [FloatOps.lt, lt] using hq
      have hn : NonNeg (mul (fin 2 ⟨h.2.1, by rw [abs_of_pos (by norm_num)]; exact h.2.2⟩) (fin r hr)) :=
        mul_nonNeg ⟨2, _, rfl, by norm_num⟩ hr0
      cases hm : mul (fin 2 ⟨h.2.1, by rw [abs_of_pos (by norm_num)]; exact h.2.2⟩) (fin r hr) with
      | nan => rw [hm] at hn; exact hn.elim
      | pinf => right; left; rfl
      | ninf => rw [hm] at hn; exact hn.elim
      | fin q' h' => rw [hm] at hn; left; exact ⟨q', h', rfl, hn⟩
  have key : ∀ u : Fl f, GeM1 u → GeM1 (FloatOps.cube u) := by
    intro u hu
    cases u with
    | nan => trivial
    | pinf => trivial
    | ninf => exact hu.elim
    | fin a ha =>
      show GeM1 (mul (mk (a * a)) (fin a ha))
      have hn : NonNeg (mk (a * a) : Fl f) := mk_nonNeg (mul_self_nonneg a)
      have ha1 : -1 ≤ a := hu
      have hmk : ∀ h', (mk (a * a) : Fl f) = fin (f.rnd (a * a)) h' ∨ mk (a * a) = (pinf : Fl f) := by
        intro h'
        unfold mk ofGrid
        by_cases hle : |f.rnd (a * a)| ≤ f.max
        · left; rw [dif_pos hle]
        · exact absurd h'.2 hle
      by_cases hle : |f.rnd (a * a)| ≤ f.max
      · rcases hmk ⟨f.rnd_grid _, hle⟩ with e | e
        · rw [e]
          have hge : 0 ≤ f.rnd (a * a) := f.rnd_nonneg (mul_self_nonneg a)
          refine mk_geM1 h ?_
          rcases le_or_gt 0 a with h0 | h0
          · nlinarith
          · have : f.rnd (a * a) ≤ 1 := by
              have := f.rnd_mono (a * a) 1 (by nlinarith)
              rwa [f.rnd_id 1 h.1] at this
            nlinarith
        · rw [e]
          rw [e] at hn
          show GeM1 (infSign a)
          unfold infSign
          split
          · trivial
          · split
            next h0 =>
              exfalso
              have : (mk (a * a) : Fl f) = fin (f.rnd (a * a)) ⟨f.rnd_grid _, hle⟩ := by
                unfold mk ofGrid; rw [dif_pos hle]
              rw [this] at e; cases e
            · trivial
      · have e : (mk (a * a) : Fl f) = pinf := by
          unfold mk ofGrid
          rw [dif_neg hle]
          have : 0 < f.rnd (a * a) := by
            rcases eq_or_lt_of_le (f.rnd_nonneg (mul_self_nonneg a)) with h0 | h0
            · exfalso; apply hle; rw [← h0, abs_zero]; exact f.max_pos.le
            · exact h0
          rw [if_pos this]
        rw [e]
        show GeM1 (infSign a)
        unfold infSign
        split
        · trivial
        · split
          next h0 =>
            exfalso
            apply hle
            have h1 : a * a ≤ 1 := by nlinarith
            have := f.rnd_mono (a * a) 1 h1
            rw [f.rnd_id 1 h.1] at this
            rw [abs_of_nonneg (f.rnd_nonneg (mul_self_nonneg a))]
            linarith [h.2.2]
          · trivial
  have hu : GeM1 (FloatOps.sub (FloatOps.mul (fin 2 ⟨h.2.1, by rw [abs_of_pos (by norm_num)]; exact h.2.2⟩) q)
      (fin 1 ⟨h.1, by rw [abs_one]; linarith [h.2.2]⟩) : Fl f) := by
    rcases hv with ⟨q', h', e, hq'⟩ | e | e
    · show GeM1 (sub (mul _ q) _)
      rw [e]
      exact mk_geM1 h (by linarith)
    · show GeM1 (sub (mul _ q) _)
      rw [e]; trivial
    · show GeM1 (sub (mul _ q) _)
      rw [e]; trivial
  have hc := key _ hu
  revert hc
  generalize (FloatOps.cube _ : Fl f) = c
  intro hc
  cases c with
  | nan => exact fun h => by cases h
  | pinf => exact fun h => by cases h
  | ninf => exact hc.elim
  | fin a ha =>
    show (mk (1 - a) : Fl f) ≠ pinf
    have ha1 : -1 ≤ a := hc
    have h2 : f.rnd (1 - a) ≤ 2 := by
      have := f.rnd_mono (1 - a) 2 (by linarith)
      rwa [f.rnd_id 2 h.2.1] at this
    unfold mk ofGrid
    split
    · exact fun h => by cases h
    next h' =>
      split
      next h0 =>
        exfalso
        apply h'
        rw [abs_of_pos h0]; linarith [h.2.2]
      · exact fun h => by cases h

end Fl
end Verif
