import Verif.Props.Damping
/-!
# C21 with rounding and overflow
-/

namespace Verif
open FloatOps

namespace Fl
variable {f : Fmt}

/-- a number (possibly infinite) of at least `c` -/
def AtLeast (c : ℚ) : Fl f → Prop
  | pinf => True
  | fin q _ => c ≤ q
  | _ => False

theorem mk_atLeast {c q : ℚ} (hc : 0 < c) (hg : f.Grid c) (h : c ≤ q) : AtLeast c (mk q : Fl f) := by
  have hr : c ≤ f.rnd q := by
    have := f.rnd_mono c q h
    rwa [f.rnd_id c hg] at this
  unfold mk ofGrid
  split
  · exact hr
  · rw [if_pos (lt_of_lt_of_le hc hr)]; trivial

theorem mul_atLeast {c l : ℚ} {hl} {b : Fl f} {d : ℚ} (hl0 : 0 < l) (hb : AtLeast d b) (hg : f.Grid c) (hc : 0 < c) (hcd : c ≤ l * d) :
    AtLeast c (mul (.fin l hl) b) := by
  cases b with
  | nan => exact hb.elim
  | ninf => exact hb.elim
  | pinf => show AtLeast c (infSign l); unfold infSign; rw [if_pos hl0]; trivial
  | fin q h =>
    have hq : d ≤ q := hb
    exact mk_atLeast hc hg (hcd.trans (mul_le_mul_of_nonneg_left hq hl0.le))

theorem mul_atLeast' {a b : Fl f} {d e : ℚ} (hd : 0 < d) (he : 1 ≤ e) (hg : f.Grid d) (ha : AtLeast d a) (hb : AtLeast e b) : AtLeast d (mul a b) := by
  cases a with
  | nan => exact ha.elim
  | ninf => exact ha.elim
  | pinf =>
    cases b with
    | nan => exact hb.elim
    | ninf => exact hb.elim
    | pinf => trivial
    | fin q h =>
      have hq : e ≤ q := hb
      show AtLeast d (infSign q)
      unfold infSign; rw [if_pos (by linarith)]; trivial
  | fin q h =>
    have hq : d ≤ q := ha
    exact mul_atLeast (by linarith) hb hg hd (by nlinarith)

end Fl

section
variable {f : Fmt} {R : Type}

theorem Res.map_eq_ok {α β : Type} {r : Res α} {g : α → β} {b : β} : r.map g = .ok b ↔ ∃ a, r = .ok a ∧ g a = b := by
  cases r <;> simp [Res.map]

theorem stdClamp_atLeast {so : SolverOpts (Fl f)} (ho : DampOpts so) {v : Fl f} {c : ℚ} (hv : Fl.AtLeast c v) {l : Fl f}
    (h : stdClamp v so.dampLo so.dampHi = .ok l) : Fl.AtLeast c l ∨ l = so.dampHi := by
  obtain ⟨a, ha, ela, ha0⟩ := ho.lo
  have hr := ho.range
  unfold stdClamp at h
  rw [hr] at h
  simp only [Bool.false_eq_true, if_false] at h
  injection h with h
  rw [← h]
  split
  · rename_i h1
    left
    cases v with
    | nan => exact hv.elim
    | ninf => exact hv.elim
    | pinf => rw [ela] at h1; exact absurd h1 (by simp [FloatOps.lt, Fl.lt])
    | fin q hq =>
      rw [ela] at h1 ⊢
      have h2 : q < a := of_decide_eq_true h1
      have h3 : c ≤ q := hv
      show c ≤ a
      linarith
  · split
    · exact Or.inr rfl
    · exact Or.inl hv

/-- **C21** (monotonicity) with rounding: a bad step, whatever happened before, does not decrease the damping. -/
theorem C21_bad_step_monotone_float {so : SolverOpts (Fl f)} (ho : DampOpts so) {s s' : LMState (Fl f) R}
    (h0 : Fl.FinPos s.lambda) (hr : InRange so s.lambda) (hb : Fl.AtLeast 1 s.badF) (h : lmBad so s = .ok s') :
    lt s'.lambda s.lambda = false := by
  obtain ⟨l, hl, el, hl0⟩ := h0
  unfold lmBad at h
  cases hc : stdClamp (mul s.lambda s.badF) so.dampLo so.dampHi with
  | ok l' =>
    rw [hc] at h
    injection h with h
    rw [← h]
    show lt l' s.lambda = false
    have hm : Fl.AtLeast l (mul s.lambda s.badF) := by
      rw [el]
      exact Fl.mul_atLeast hl0 hb hl.1 hl0 (by linarith)
    rcases stdClamp_atLeast ho hm hc with h1 | h1
    · rw [el]
      cases l' with
      | nan => rfl
      | ninf => exact h1.elim
      | pinf => rfl
      | fin q hq =>
        have h2 : l ≤ q := h1
        exact decide_eq_false (not_lt.mpr h2)
    · rw [h1]; exact hr.2.1
  | throw => rw [hc] at h; cases h
  | ub => rw [hc] at h; cases h
  | fuel => rw [hc] at h; cases h

/-- one bad step doubles the damping or sets it to the maximum -/
theorem lmBad_doubles (hdbl : ∀ q, f.Grid q → f.Grid (2 * q)) {so : SolverOpts (Fl f)} (ho : DampOpts so) (h2 : Fl.HasTwo f)
    (hb : Fl.AtLeast 2 so.badFactor) {m : ℚ} {hm} (em : so.dampHi = .fin m hm) {s : LMState (Fl f) R} {l : ℚ} {hl}
    (el : s.lambda = .fin l hl) (hl0 : 0 < l) (hs : Fl.AtLeast 2 s.badF) :
    ∃ s' l' hl', lmBad so s = .ok s' ∧ Fl.AtLeast 2 s'.badF ∧ s'.lambda = .fin l' hl' ∧ 0 < l' ∧ l' ≤ m ∧ (l' = m ∨ 2 * l ≤ l') := by
  have hnn : Fl.NonNeg s.badF := by
    cases hF : s.badF with
    | nan => rw [hF] at hs; exact hs.elim
    | ninf => rw [hF] at hs; exact hs.elim
    | pinf => trivial
    | fin q h =>
      rw [hF] at hs
      have : (2 : ℚ) ≤ q := hs
      show (0 : ℚ) ≤ q
      linarith
  obtain ⟨s', e, hr, hfp, -⟩ := lmBad_range ho (s := s) ⟨⟨l, hl, el, hl0⟩, hnn⟩
  obtain ⟨l', hl', el', hl0'⟩ := hfp
  have hle : l' ≤ m := by
    have := hr.2.1
    rw [em, el'] at this
    exact not_lt.mp (of_decide_eq_false this)
  have hmul : Fl.AtLeast (2 * l) (mul s.lambda s.badF) := by
    rw [el]
    exact Fl.mul_atLeast hl0 hs (hdbl l hl.1) (by linarith) (by linarith)
  refine ⟨s', l', hl', e, ?_, el', hl0', hle, ?_⟩
  · unfold lmBad at e
    obtain ⟨c, -, rfl⟩ := Res.map_eq_ok.mp e
    exact Fl.mul_atLeast' (by norm_num) (by norm_num : (1 : ℚ) ≤ 2) h2.2.1 hs hb
  · unfold lmBad at e
    obtain ⟨c, hc, rfl⟩ := Res.map_eq_ok.mp e
    have el'' : c = .fin l' hl' := el'
    rcases stdClamp_atLeast ho hmul hc with h | h
    · right; rw [el''] at h; exact h
    · left
      rw [el'', em] at h
      injection h

/-- **C21** (the maximum is reached) with rounding, for a `bad_factor` of at least 2 and a format in which doubling is exact:
after finitely many consecutive bad steps the damping is the maximum and stays there. -/
theorem C21_reaches_max_float (hdbl : ∀ q, f.Grid q → f.Grid (2 * q)) {so : SolverOpts (Fl f)} (ho : DampOpts so)
    {s : LMState (Fl f) R} (h0 : Fl.FinPos s.lambda) (h2 : Fl.HasTwo f) (hb : Fl.AtLeast 2 so.badFactor)
    (hs : Fl.AtLeast 2 s.badF) :
    ∃ K, ∀ k ≥ K, ∃ s', runOps so (List.replicate k .bad) s = .ok s' ∧ s'.lambda = so.dampHi := by
  obtain ⟨m, hm, em⟩ := (Fl.finite_iff _).1 ho.hi
  have key : ∀ (k : ℕ) (s : LMState (Fl f) R) (l : ℚ) (hl : _), s.lambda = .fin l hl → 0 < l → l ≤ m → Fl.AtLeast 2 s.badF →
      ∃ s' l' hl', runOps so (List.replicate k .bad) s = .ok s' ∧ s'.lambda = .fin l' hl' ∧ l' ≤ m ∧ (l' = m ∨ 2 ^ k * l ≤ l') := by
    intro k
    induction k with
    | zero => intro s l hl el _ hle _; exact ⟨s, l, hl, rfl, el, hle, Or.inr (by simp)⟩
    | succ k ih =>
      intro s l hl el hl0 hle hs
      obtain ⟨s1, l1, hl1, e1, b1, el1, p1, le1, o1⟩ := lmBad_doubles hdbl ho h2 hb em el hl0 hs
      obtain ⟨s', l', hl', e', el', le', o'⟩ := ih s1 l1 hl1 el1 p1 le1 b1
      refine ⟨s', l', hl', ?_, el', le', ?_⟩
      · show (lmBad so s).bind _ = _
        rw [e1, Res.bind_ok]; exact e'
      · rcases o' with o' | o'
        · exact Or.inl o'
        · have hk : (1 : ℚ) ≤ 2 ^ k := one_le_pow₀ (by norm_num)
          rcases o1 with o1 | o1
          · left
            have : l1 ≤ 2 ^ k * l1 := by nlinarith
            linarith
          · right
            have : (2 : ℚ) ^ k * (2 * l) ≤ 2 ^ k * l1 := mul_le_mul_of_nonneg_left o1 (by positivity)
            calc (2 : ℚ) ^ (k + 1) * l = 2 ^ k * (2 * l) := by ring
              _ ≤ _ := by linarith
  obtain ⟨l, hl, el, hl0⟩ := h0
  obtain ⟨s1, l1, hl1, e1, b1, el1, p1, le1, -⟩ := lmBad_doubles hdbl ho h2 hb em el hl0 hs
  obtain ⟨N, hN⟩ := pow_unbounded_of_one_lt (m / l1) (by norm_num : (1 : ℚ) < 2)
  refine ⟨N + 1, fun k hk => ?_⟩
  obtain ⟨j, rfl⟩ : ∃ j, k = j + 1 := ⟨k - 1, by omega⟩
  obtain ⟨s', l', hl', e', el', le', o'⟩ := key j s1 l1 hl1 el1 p1 le1 b1
  refine ⟨s', ?_, ?_⟩
  · show (lmBad so s).bind _ = _
    rw [e1, Res.bind_ok]; exact e'
  · have : l' = m := by
      rcases o' with o' | o'
      · exact o'
      · exfalso
        have h3 : (2 : ℚ) ^ N ≤ 2 ^ j := pow_le_pow_right₀ (by norm_num) (by omega)
        rw [div_lt_iff₀ p1] at hN
        have : (2 : ℚ) ^ N * l1 ≤ 2 ^ j * l1 := mul_le_mul_of_nonneg_right h3 p1.le
        linarith
    rw [el', em]
    subst this
    rfl

theorem gridBin_double {p : ℕ} {emin : ℤ} (q : ℚ) (h : GridBin p emin q) : GridBin p emin (2 * q) := by
  obtain ⟨m, e, hm, he, rfl⟩ := h
  exact ⟨m, e + 1, hm, by omega, by rw [zpow_add₀ (by norm_num)]; simp; ring⟩

/-- the default options in double precision meet the hypotheses -/
example (s0 : LMState (Fl Fmt.binary64) (Fl Fmt.binary64)) :
    ∃ K, ∀ k ≥ K, ∃ s', runOps sopts64 (List.replicate k .bad) (lmReset sopts64 s0) = .ok s' ∧ s'.lambda = sopts64.dampHi :=
  C21_reaches_max_float (fun q h => gridBin_double q h) dampOpts_sopts64
    (Fl.finPos_of (show Fl.isFinPos sopts64.dampInit = true by decide +kernel)) hasTwo_binary64
    (by show Fl.AtLeast 2 (ofInt 2 : Fl Fmt.binary64); rw [hasTwo_binary64.two]; exact le_refl (2 : ℚ))
    (by show Fl.AtLeast 2 (ofInt 2 : Fl Fmt.binary64); rw [hasTwo_binary64.two]; exact le_refl (2 : ℚ))

end
end Verif
