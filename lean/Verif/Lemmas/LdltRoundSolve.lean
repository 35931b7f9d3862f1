import Verif.Lemmas.LdltRoundGo
/-!
# Rounding errors of the LDLT decomposition: the substitutions
-/

set_option linter.unusedSectionVars false

namespace Verif
open FloatOps

section
variable {n : Nat} {u : ℝ} {r : Rnd u}

/-- the relative error of a whole solve -/
def solErr (u : ℝ) (n : ℕ) : ℝ := (1 + u) ^ (2 * n + 4) - 1

theorem solErr_nonneg (hu : 0 ≤ u) (n : ℕ) : 0 ≤ solErr u n := by unfold solErr; linarith [one_le_pow_u hu (2 * n + 4)]

theorem facErr_le_solErr (hu : 0 ≤ u) (n : ℕ) : facErr u n ≤ solErr u n := by
  unfold facErr solErr; linarith [pow_u_mono hu (show n + 3 ≤ 2 * n + 4 by omega)]

/-- `L D Lᵀ x` and `|L| |D| |L|ᵀ |x|` -/
def ldMul (ws : List (ℝ × Vec ℝ n)) (x : Vec ℝ n) (i : Fin n) : ℝ := (ws.map fun w => w.1 * w.2 i * ∑ j, w.2 j * x j).sum
def ldMulAbs (ws : List (ℝ × Vec ℝ n)) (x : Vec ℝ n) (i : Fin n) : ℝ := (ws.map fun w => |w.1 * w.2 i| * ∑ j, |w.2 j * x j|).sum

theorem ldMul_eq (ws : List (ℝ × Vec ℝ n)) (x : Vec ℝ n) (i : Fin n) : ldMul ws x i = ∑ j, ldM ws i j * x j := by
  induction ws with
  | nil => simp [ldMul, ldM]
  | cons w ws ih =>
    simp only [ldMul, ldM, List.map_cons, List.sum_cons, add_mul, Finset.sum_add_distrib] at ih ⊢
    rw [ih, Finset.mul_sum]
    congr 1
    exact Finset.sum_congr rfl fun j _ => by ring

theorem ldMulAbs_eq (ws : List (ℝ × Vec ℝ n)) (x : Vec ℝ n) (i : Fin n) : ldMulAbs ws x i = ∑ j, ldAbs ws i j * |x j| := by
  induction ws with
  | nil => simp [ldMulAbs, ldAbs]
  | cons w ws ih =>
    simp only [ldMulAbs, ldAbs, List.map_cons, List.sum_cons, add_mul, Finset.sum_add_distrib] at ih ⊢
    rw [ih, Finset.mul_sum]
    congr 1
    exact Finset.sum_congr rfl fun j _ => by rw [← abs_mul, ← abs_mul]; congr 1; ring

theorem ldMulAbs_nonneg (ws : List (ℝ × Vec ℝ n)) (x : Vec ℝ n) (i : Fin n) : 0 ≤ ldMulAbs ws x i := by
  rw [ldMulAbs_eq]
  exact Finset.sum_nonneg fun j _ => mul_nonneg (ldAbs_nonneg _ _ _) (abs_nonneg _)

theorem abs_ldMul_le (ws : List (ℝ × Vec ℝ n)) (x : Vec ℝ n) (i : Fin n) : |ldMul ws x i| ≤ ldMulAbs ws x i := by
  rw [ldMul_eq, ldMulAbs_eq]
  refine (Finset.abs_sum_le_sum_abs _ _).trans (Finset.sum_le_sum fun j _ => ?_)
  rw [abs_mul]
  exact mul_le_mul_of_nonneg_right (abs_ldM_le _ _ _) (abs_nonneg _)

/-- a sum over the pivots -/
theorem sum_pivots (cs : List (LdltCol (Rd r) n)) (hn : (cs.map (·.p)).Nodup) (f : Fin n → ℝ) (hf : ∀ j, j ∉ cs.map (·.p) → f j = 0) :
    (cs.map fun c => f c.p).sum = ∑ j, f j := by
  have h1 : (cs.map fun c => f c.p) = (cs.map (·.p)).map f := by simp
  rw [h1, ← List.sum_toFinset f hn]
  exact Finset.sum_subset (Finset.subset_univ _) fun j _ hj => hf j (by simpa using hj)

/-- only the pivots get a value -/
theorem ldltSolve_rd_off (tol : Rd r) : ∀ (cs : List (LdltCol (Rd r) n)) (b : Vec (Rd r) n) (i : Fin n), i ∉ cs.map (·.p) → (ldltSolve tol cs b i).v = 0 := by
  intro cs
  induction cs with
  | nil => intro b i _; simp [ldltSolve]
  | cons c cs ih =>
    intro b i hi
    simp only [List.map_cons, List.mem_cons, not_or] at hi
    rw [ldltSolve]
    simp only [if_neg hi.1]
    exact ih _ i hi.2

/-- **the substitutions solve a nearby system** -/
theorem ldltSolve_rounded (hu : 0 ≤ u) (hu2 : u ≤ 1 / 2) {tol : Rd r} : ∀ (cs : List (LdltCol (Rd r) n)) (prev : List (Fin n)) (b : Vec (Rd r) n),
    (cs.map (·.p)).Nodup → (∀ i ∈ cs.map (·.p), i ∉ prev) → (∀ c ∈ cs, 0 < c.d.v ∧ tol.v < c.d.v) → ∀ i ∈ cs.map (·.p),
    |(b i).v - ldMul (fullCols prev cs) (fun j => (ldltSolve tol cs b j).v) i| ≤
      ((1 + u) ^ (2 * cs.length + 4) - 1) * ldMulAbs (fullCols prev cs) (fun j => (ldltSolve tol cs b j).v) i := by
  intro cs
  induction cs with
  | nil => intro prev b _ _ _ i hi; simp at hi
  | cons c cs ih =>
    intro prev b hn hprev hpos i hi
    rw [List.map_cons, List.nodup_cons] at hn
    obtain ⟨hd, htol⟩ := hpos c List.mem_cons_self
    set b' : Vec (Rd r) n := fun i => sub (b i) (mul (b c.p) (c.l i)) with hb'
    set x' : Vec (Rd r) n := ldltSolve tol cs b' with hx'
    set z : Rd r := div (b c.p) c.d with hz
    set T : Rd r := cs.foldl (fun a c' => add a (mul (c.l c'.p) (x' c'.p))) (ofInt 0) with hT
    set xp : Rd r := sub z T with hxp
    have hx : ldltSolve tol (c :: cs) b = fun i => if i = c.p then xp else x' i := by
      have h1 : lt tol (absF c.d) = true := by rw [Rd.lt_iff, absF_rd, abs_of_pos hd]; exact htol
      rw [ldltSolve]
      simp only [h1, if_true]
      rfl
    rw [hx]
    set x : Vec ℝ n := fun j => (if j = c.p then xp else x' j).v with hxv
    have hx0 : ∀ j, j ∉ cs.map (·.p) → j ≠ c.p → x j = 0 := by
      intro j h1 h2
      simp only [hxv, if_neg h2]
      exact ldltSolve_rd_off tol cs b' j h1
    have hxc : x c.p = xp.v := by simp [hxv]
    have hxin : ∀ j, j ≠ c.p → x j = (x' j).v := by
      intro j h; simp only [hxv, if_neg h]
    set v : Vec ℝ n := fun i => if i = c.p then 1 else if i ∈ prev then 0 else (c.l i).v with hv
    have hvc : v c.p = 1 := by simp [hv]
    have hvin : ∀ j ∈ cs.map (·.p), v j = (c.l j).v := by
      intro j hj
      have h1 : j ≠ c.p := fun e => hn.1 (e ▸ hj)
      have h2 : j ∉ prev := hprev j (by rw [List.map_cons]; exact List.mem_cons_of_mem _ hj)
      simp only [hv, if_neg h1, if_neg h2]
    -- the row of the unknown
    set w : ℝ := ∑ j, v j * x j with hw
    set W : ℝ := ∑ j, |v j * x j| with hW
    have hW0 : 0 ≤ W := Finset.sum_nonneg fun j _ => abs_nonneg _
    have hwW : |w| ≤ W := Finset.abs_sum_le_sum_abs _ _
    have hTn : Near u (cs.length + 1) T.v (w - xp.v) (W - |xp.v|) := by
      have h0 : Near u 1 (ofInt 0 : Rd r).v 0 0 := by
        rw [Rd.ofInt_zero_v]
        simpa using Near.exact (u := u) 1 hu 0
      have h1 := foldl_near2 hu (fun c' : LdltCol (Rd r) n => c.l c'.p) (fun c' => x' c'.p) cs 1 (ofInt 0) 0 0 le_rfl h0
      have e : ∀ (g : ℝ → ℝ), g 0 = 0 → (cs.map fun c' : LdltCol (Rd r) n => g ((c.l c'.p).v * (x' c'.p).v)).sum = ∑ j, g (v j * x j) - g (xp.v) := by
        intro g hg
        have e1 : (cs.map fun c' : LdltCol (Rd r) n => g ((c.l c'.p).v * (x' c'.p).v)) = cs.map fun c' : LdltCol (Rd r) n => (fun j => if j = c.p then 0 else g (v j * x j)) c'.p := by
          refine List.map_congr_left fun c' hc' => ?_
          have h3 : c'.p ∈ cs.map (·.p) := List.mem_map_of_mem hc'
          have h4 : c'.p ≠ c.p := fun e => hn.1 (e ▸ h3)
          simp only [if_neg h4]
          rw [hvin _ h3, hxin _ h4]
        rw [e1, sum_pivots cs hn.2 (fun j => if j = c.p then 0 else g (v j * x j)) fun j hj => ?_]
        · rw [← Finset.sum_erase_add _ _ (Finset.mem_univ c.p), ← Finset.sum_erase_add _ (fun j => g (v j * x j)) (Finset.mem_univ c.p), hvc, hxc, one_mul, if_pos rfl]
          rw [Finset.sum_congr rfl fun j hj => if_neg (Finset.ne_of_mem_erase hj)]
          ring
        · by_cases h5 : j = c.p
          · simp [h5]
          · simp [h5, hx0 j hj h5, hg]
      have e1 := e id rfl
      have e2 := e abs abs_zero
      simp only [id] at e1
      rw [zero_add, zero_add, e1, e2, ← hw, ← hW, add_comm 1] at h1
      exact h1
    have hy : |(b c.p).v - c.d.v * w| ≤ ((1 + u) ^ (2 * (cs.length + 1) + 3) - 1) * (c.d.v * W) := by
      have h1 := r.back hu hu2 (z.v - T.v)
      rw [show r.rnd (z.v - T.v) = xp.v from rfl] at h1
      have h2 := r.back hu hu2 ((b c.p).v / c.d.v)
      rw [show r.rnd ((b c.p).v / c.d.v) = z.v from rfl] at h2
      set e := (1 + u) ^ (cs.length + 2) - 1 with he
      have he0 : 0 ≤ e := by rw [he]; linarith [one_le_pow_u hu (cs.length + 2)]
      have hxpW : |xp.v| ≤ W := by
        have := hTn.nonneg; linarith
      have h3 : |z.v - w| ≤ e * W := by
        have h4 : z.v - w = (z.v - T.v - xp.v) + (T.v - (w - xp.v)) := by ring
        rw [h4]
        have h5 := abs_add_le (z.v - T.v - xp.v) (T.v - (w - xp.v))
        have h6 := hTn.2
        have h7 : ((1 + u) ^ 2 - 1) * |xp.v| ≤ e * |xp.v| := mul_le_mul_of_nonneg_right (by rw [he]; linarith [pow_u_mono hu (show 2 ≤ cs.length + 2 by omega)]) (abs_nonneg _)
        have h8 : ((1 + u) ^ (cs.length + 1) - 1) * (W - |xp.v|) ≤ e * (W - |xp.v|) :=
          mul_le_mul_of_nonneg_right (by rw [he]; linarith [pow_u_mono hu (show cs.length + 1 ≤ cs.length + 2 by omega)]) (by linarith)
        linarith
      have h9 : |z.v| ≤ (1 + e) * W := by
        have := abs_add_le (z.v - w) w
        rw [sub_add_cancel] at this
        linarith
      have h10 : |(b c.p).v / c.d.v - w| ≤ ((1 + u) ^ 2 * (1 + e) - 1) * W := by
        have h11 : (b c.p).v / c.d.v - w = ((b c.p).v / c.d.v - z.v) + (z.v - w) := by ring
        rw [h11]
        have h12 := abs_add_le ((b c.p).v / c.d.v - z.v) (z.v - w)
        have h13 : ((1 + u) ^ 2 - 1) * |z.v| ≤ ((1 + u) ^ 2 - 1) * ((1 + e) * W) := mul_le_mul_of_nonneg_left h9 (by nlinarith)
        linarith
      have h14 : (b c.p).v - c.d.v * w = c.d.v * ((b c.p).v / c.d.v - w) := by field_simp
      rw [h14, abs_mul, abs_of_pos hd]
      have h15 : (1 + u) ^ 2 * (1 + e) = (1 + u) ^ (cs.length + 4) := by rw [he]; ring
      have h16 : (1 + u) ^ (cs.length + 4) ≤ (1 + u) ^ (2 * (cs.length + 1) + 3) := pow_u_mono hu (by omega)
      rw [h15] at h10
      calc c.d.v * |(b c.p).v / c.d.v - w| ≤ c.d.v * (((1 + u) ^ (cs.length + 4) - 1) * W) := mul_le_mul_of_nonneg_left h10 hd.le
        _ = ((1 + u) ^ (cs.length + 4) - 1) * (c.d.v * W) := by ring
        _ ≤ _ := mul_le_mul_of_nonneg_right (by linarith) (by positivity)
    have hmul : ldMul (fullCols prev (c :: cs)) x i = c.d.v * v i * w + ldMul (fullCols (prev ++ [c.p]) cs) x i := by
      simp only [ldMul, fullCols, List.map_cons, List.sum_cons]
      rfl
    have hmulA : ldMulAbs (fullCols prev (c :: cs)) x i = |c.d.v * v i| * W + ldMulAbs (fullCols (prev ++ [c.p]) cs) x i := by
      simp only [ldMulAbs, fullCols, List.map_cons, List.sum_cons]
      rfl
    rw [hmul, hmulA, List.length_cons]
    have hpow1 : (1 + u) ^ (2 * (cs.length + 1) + 3) ≤ (1 + u) ^ (2 * (cs.length + 1) + 4) := pow_u_mono hu (by omega)
    rw [List.map_cons, List.mem_cons] at hi
    rcases eq_or_ne i c.p with rfl | hne
    · -- the row of the pivot
      have h0 : ∀ w ∈ fullCols (prev ++ [c.p]) cs, w.2 c.p = 0 := by
        have : ∀ (cs : List (LdltCol (Rd r) n)) (prev : List (Fin n)), c.p ∈ prev → c.p ∉ cs.map (·.p) → ∀ w ∈ fullCols prev cs, w.2 c.p = 0 := by
          intro cs
          induction cs with
          | nil => intro prev _ _ w hw; simp [fullCols] at hw
          | cons c' cs ih2 =>
            intro prev h1 h2 w hw
            simp only [List.map_cons, List.mem_cons, not_or] at h2
            simp only [fullCols, List.mem_cons] at hw
            rcases hw with rfl | hw
            · simp [h1, h2.1]
            · exact ih2 (prev ++ [c'.p]) (by simp [h1]) h2.2 w hw
        exact this cs _ (by simp) hn.1
      have h1 : ldMul (fullCols (prev ++ [c.p]) cs) x c.p = 0 := by
        unfold ldMul
        refine List.sum_eq_zero fun a ha => ?_
        obtain ⟨w, hw, rfl⟩ := List.mem_map.1 ha
        rw [h0 w hw]; ring
      have h2 : ldMulAbs (fullCols (prev ++ [c.p]) cs) x c.p = 0 := by
        unfold ldMulAbs
        refine List.sum_eq_zero fun a ha => ?_
        obtain ⟨w, hw, rfl⟩ := List.mem_map.1 ha
        rw [h0 w hw]; simp
      rw [h1, h2, hvc, mul_one, add_zero, add_zero, abs_of_pos hd]
      refine hy.trans (mul_le_mul_of_nonneg_right (by linarith) (by positivity))
    · -- the other rows
      have hics : i ∈ cs.map (·.p) := hi.resolve_left hne
      have hih := ih (prev ++ [c.p]) b' hn.2 (fun j hj => by
        rw [List.mem_append, List.mem_singleton, not_or]
        exact ⟨hprev j (by rw [List.map_cons]; exact List.mem_cons_of_mem _ hj), fun e => hn.1 (e ▸ hj)⟩) (fun c' hc' => hpos c' (List.mem_cons_of_mem _ hc')) i hics
      -- the new unknown does not appear in the other columns
      have h0 : ∀ w ∈ fullCols (prev ++ [c.p]) cs, w.2 c.p = 0 := by
        have : ∀ (cs : List (LdltCol (Rd r) n)) (prev : List (Fin n)), c.p ∈ prev → c.p ∉ cs.map (·.p) → ∀ w ∈ fullCols prev cs, w.2 c.p = 0 := by
          intro cs
          induction cs with
          | nil => intro prev _ _ w hw; simp [fullCols] at hw
          | cons c' cs ih2 =>
            intro prev h1 h2 w hw
            simp only [List.map_cons, List.mem_cons, not_or] at h2
            simp only [fullCols, List.mem_cons] at hw
            rcases hw with rfl | hw
            · simp [h1, h2.1]
            · exact ih2 (prev ++ [c'.p]) (by simp [h1]) h2.2 w hw
        exact this cs _ (by simp) hn.1
      have hM' : ldMul (fullCols (prev ++ [c.p]) cs) (fun j => (x' j).v) i = ldMul (fullCols (prev ++ [c.p]) cs) x i := by
        unfold ldMul
        congr 1
        refine List.map_congr_left fun w hw => ?_
        congr 1
        refine Finset.sum_congr rfl fun j _ => ?_
        by_cases hj : j = c.p
        · rw [hj, h0 w hw]; ring
        · rw [hxin j hj]
      have hA' : ldMulAbs (fullCols (prev ++ [c.p]) cs) (fun j => (x' j).v) i = ldMulAbs (fullCols (prev ++ [c.p]) cs) x i := by
        unfold ldMulAbs
        congr 1
        refine List.map_congr_left fun w hw => ?_
        congr 1
        refine Finset.sum_congr rfl fun j _ => ?_
        by_cases hj : j = c.p
        · rw [hj, h0 w hw]; simp
        · rw [hxin j hj]
      rw [← hx', hM', hA'] at hih
      set B := ldMulAbs (fullCols (prev ++ [c.p]) cs) x i with hB
      have hB0 : 0 ≤ B := ldMulAbs_nonneg _ _ _
      set θ := (1 + u) ^ (2 * cs.length + 4) - 1 with hθ
      have hθ0 : 0 ≤ θ := by rw [hθ]; linarith [one_le_pow_u hu (2 * cs.length + 4)]
      have hbB : |(b' i).v| ≤ (1 + θ) * B := by
        have h1 := abs_ldMul_le (fullCols (prev ++ [c.p]) cs) x i
        have h2 := abs_add_le ((b' i).v - ldMul (fullCols (prev ++ [c.p]) cs) x i) (ldMul (fullCols (prev ++ [c.p]) cs) x i)
        rw [sub_add_cancel] at h2
        linarith
      have hvi := hvin i hics
      have h1 := r.back hu hu2 ((b i).v - r.rnd ((b c.p).v * (c.l i).v))
      rw [show r.rnd ((b i).v - r.rnd ((b c.p).v * (c.l i).v)) = (b' i).v from rfl] at h1
      have h2 := r.err ((b c.p).v * (c.l i).v)
      rw [← hvi] at h1 h2
      set y := (b c.p).v with hyd
      have hyW : |y| ≤ (1 + u) ^ (2 * (cs.length + 1) + 3) * (c.d.v * W) := by
        have h3 := abs_add_le (y - c.d.v * w) (c.d.v * w)
        rw [sub_add_cancel, abs_mul, abs_of_pos hd] at h3
        have h4 := mul_le_mul_of_nonneg_left hwW hd.le
        linarith
      have e : (b i).v - (c.d.v * v i * w + ldMul (fullCols (prev ++ [c.p]) cs) x i) =
          ((b i).v - r.rnd (y * v i) - (b' i).v) + (r.rnd (y * v i) - y * v i) + (y - c.d.v * w) * v i + ((b' i).v - ldMul (fullCols (prev ++ [c.p]) cs) x i) := by ring
      rw [e]
      have h5 : |((b i).v - r.rnd (y * v i) - (b' i).v) + (r.rnd (y * v i) - y * v i) + (y - c.d.v * w) * v i + ((b' i).v - ldMul (fullCols (prev ++ [c.p]) cs) x i)| ≤
          |(b i).v - r.rnd (y * v i) - (b' i).v| + |r.rnd (y * v i) - y * v i| + |(y - c.d.v * w) * v i| + |(b' i).v - ldMul (fullCols (prev ++ [c.p]) cs) x i| :=
        (abs_add_le _ _).trans (add_le_add ((abs_add_le _ _).trans (add_le_add (abs_add_le _ _) le_rfl)) le_rfl)
      refine h5.trans ?_
      set q := (1 + u) ^ (2 * (cs.length + 1) + 3) with hq
      set V := c.d.v * W * |v i| with hV
      have hV0 : 0 ≤ V := by rw [hV]; positivity
      have h6 : |r.rnd (y * v i) - y * v i| ≤ u * (q * V) := by
        refine h2.trans (mul_le_mul_of_nonneg_left ?_ hu)
        rw [abs_mul]
        have := mul_le_mul_of_nonneg_right hyW (abs_nonneg (v i))
        rw [hV]; linarith
      have h7 : |(y - c.d.v * w) * v i| ≤ (q - 1) * V := by
        rw [abs_mul]
        have := mul_le_mul_of_nonneg_right hy (abs_nonneg (v i))
        rw [hV]; linarith
      have h8 : |(b i).v - r.rnd (y * v i) - (b' i).v| ≤ ((1 + u) ^ 2 - 1) * ((1 + θ) * B) := h1.trans (mul_le_mul_of_nonneg_left hbB (by nlinarith))
      have h9 : |c.d.v * v i| * W = V := by rw [abs_mul, abs_of_pos hd, hV]; ring
      rw [h9]
      have e1 : (1 + u) ^ (2 * (cs.length + 1) + 4) = (1 + u) * q := by rw [hq]; ring
      have e2 : (1 + u) ^ (2 * (cs.length + 1) + 4) = (1 + u) ^ 2 * (1 + θ) := by rw [hθ]; ring
      calc _ ≤ ((1 + u) ^ 2 - 1) * ((1 + θ) * B) + u * (q * V) + (q - 1) * V + θ * B := by linarith
        _ = ((1 + u) * q - 1) * V + ((1 + u) ^ 2 * (1 + θ) - 1) * B := by ring
        _ = ((1 + u) ^ (2 * (cs.length + 1) + 4) - 1) * (V + B) := by rw [← e1, ← e2]; ring

end
end Verif
