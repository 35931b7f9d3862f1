import Verif.Model.EigenLDLT
import Verif.Props.Indefinite
/-!
# C104: the decomposition of `SolveLDLT`
-/

set_option linter.unusedSectionVars false

namespace Verif
open FloatOps

section
variable {n : Nat}

/-! ### Over the reals -/

theorem ldltDot_real (done : List (LdltCol ℝ n)) (i j : Fin n) : ldltDot done i j = (done.map fun c => c.d * c.l i * c.l j).sum := by
  unfold ldltDot
  have : ∀ (l : List (LdltCol ℝ n)) (a : ℝ), l.foldl (fun a c => add a (mul (c.l i) (mul c.d (c.l j)))) a = a + (l.map fun c => c.d * c.l i * c.l j).sum := by
    intro l
    induction l with
    | nil => intro a; simp
    | cons c l ih =>
      intro a
      rw [List.foldl_cons, ih, List.map_cons, List.sum_cons]
      simp only [RealOps.add_eq, RealOps.mul_eq]
      ring
  rw [this]; simp

theorem ldltRest_nil (A : Mat ℝ n) : ldltRest A [] = A := by
  funext i j; simp [ldltRest, ldltDot]

theorem ldltRest_snoc (A : Mat ℝ n) (done : List (LdltCol ℝ n)) (c : LdltCol ℝ n) (i j : Fin n) :
    ldltRest A (done ++ [c]) i j = ldltRest A done i j - c.d * c.l i * c.l j := by
  unfold ldltRest
  rw [ldltDot_real, ldltDot_real]
  simp only [List.map_append, List.sum_append, List.map_cons, List.map_nil, List.sum_cons, List.sum_nil, RealOps.sub_eq]
  ring

theorem ldltRest_sym {A : Mat ℝ n} (hA : SymR A) (done : List (LdltCol ℝ n)) : SymR (ldltRest A done) := by
  intro i j
  unfold ldltRest
  rw [ldltDot_real, ldltDot_real, hA i j]
  congr 3
  funext c; ring

/-- The columns are a decomposition of `S` on the indices `I`: each takes the part of its pivot off. -/
def Dec (S : Mat ℝ n) (I : Finset (Fin n)) : List (LdltCol ℝ n) → Prop
  | [] => I = ∅
  | c :: cs => c.p ∈ I ∧ S c.p c.p = c.d ∧ (∀ i ∈ I.erase c.p, S i c.p = c.d * c.l i) ∧ (c.d = 0 → ∀ i ∈ I.erase c.p, c.l i = 0) ∧
    Dec (fun i j => S i j - c.d * c.l i * c.l j) (I.erase c.p) cs

/-- the quadratic form on the indices `I` -/
def qf (S : Mat ℝ n) (I : Finset (Fin n)) (v : Vec ℝ n) : ℝ := ∑ i ∈ I, ∑ j ∈ I, S i j * v i * v j

theorem qf_univ (S : Mat ℝ n) (v : Vec ℝ n) : qf S Finset.univ v = dotR v (mv S v) := by
  unfold qf dotR mv
  refine Finset.sum_congr rfl fun i _ => ?_
  rw [Finset.mul_sum]
  exact Finset.sum_congr rfl fun j _ => by ring

theorem qf_split {S : Mat ℝ n} (hS : SymR S) {I : Finset (Fin n)} {p : Fin n} (hp : p ∈ I) {d : ℝ} {l : Vec ℝ n} (hd : S p p = d) (hl : ∀ i ∈ I.erase p, S i p = d * l i)
    (v : Vec ℝ n) : qf S I v = d * (v p + ∑ j ∈ I.erase p, l j * v j) ^ 2 + qf (fun i j => S i j - d * l i * l j) (I.erase p) v := by
  unfold qf
  rw [← Finset.add_sum_erase I _ hp]
  have h1 : ∑ j ∈ I, S p j * v p * v j = d * v p * v p + d * v p * ∑ j ∈ I.erase p, l j * v j := by
    rw [← Finset.add_sum_erase I _ hp, hd, Finset.mul_sum]
    congr 1
    refine Finset.sum_congr rfl fun j hj => ?_
    rw [hS p j, hl j hj]; ring
  have h2 : ∀ i ∈ I.erase p, ∑ j ∈ I, S i j * v i * v j =
      d * v p * (l i * v i) + (∑ j ∈ I.erase p, (S i j - d * l i * l j) * v i * v j + d * (l i * v i) * ∑ j ∈ I.erase p, l j * v j) := by
    intro i hi
    rw [← Finset.add_sum_erase I _ hp, hl i hi, Finset.mul_sum, ← Finset.sum_add_distrib]
    congr 1
    · ring
    · exact Finset.sum_congr rfl fun j hj => by ring
  rw [h1, Finset.sum_congr rfl h2, Finset.sum_add_distrib, Finset.sum_add_distrib, ← Finset.mul_sum, ← Finset.sum_mul, ← Finset.mul_sum]
  ring

theorem sub_sym {S : Mat ℝ n} (hS : SymR S) (d : ℝ) (l : Vec ℝ n) : SymR (fun i j => S i j - d * l i * l j) := by
  intro i j
  show _ - _ = _ - _
  rw [hS i j]; ring

theorem Dec.sum {S : Mat ℝ n} {I : Finset (Fin n)} {cs : List (LdltCol ℝ n)} (h : Dec S I cs) (f : Fin n → ℝ) : (cs.map fun c => f c.p).sum = ∑ i ∈ I, f i := by
  induction cs generalizing S I with
  | nil => rw [show I = ∅ from h]; simp
  | cons c cs ih =>
    obtain ⟨h1, -, -, -, h4⟩ := h
    rw [List.map_cons, List.sum_cons, ih h4, Finset.add_sum_erase I _ h1]

theorem foldl_sum {α : Type} (f : α → ℝ) (l : List α) : l.foldl (fun a c => add a (f c)) (ofInt 0) = (l.map f).sum := by
  have : ∀ (l : List α) (a : ℝ), l.foldl (fun a c => add a (f c)) a = a + (l.map f).sum := by
    intro l
    induction l with
    | nil => intro a; simp
    | cons c l ih => intro a; rw [List.foldl_cons, ih]; simp; ring
  rw [this]; simp

/-! ### Solving with a decomposition -/

theorem ldltSolve_cons {S : Mat ℝ n} {I : Finset (Fin n)} {tol : ℝ} {c : LdltCol ℝ n} {cs : List (LdltCol ℝ n)} (h : Dec S I cs) (b : Vec ℝ n) :
    ldltSolve tol (c :: cs) b = fun i => if i = c.p then (if tol < |c.d| then b c.p / c.d else 0) - ∑ j ∈ I, c.l j * ldltSolve tol cs (fun i => b i - b c.p * c.l i) j
      else ldltSolve tol cs (fun i => b i - b c.p * c.l i) i := by
  have e : (fun i => sub (b i) (mul (b c.p) (c.l i))) = fun i => b i - b c.p * c.l i := by funext i; simp
  rw [ldltSolve]
  simp only [e]
  funext i
  rw [foldl_sum (fun c' : LdltCol ℝ n => mul (c.l c'.p) (ldltSolve tol cs (fun i => b i - b c.p * c.l i) c'.p)) cs]
  have := h.sum fun j => c.l j * ldltSolve tol cs (fun i => b i - b c.p * c.l i) j
  simp only [RealOps.mul_eq, RealOps.sub_eq, this, absF_real, RealOps.lt_eq, RealOps.div_eq, RealOps.ofInt_eq, Int.cast_zero]

/-- the solution is 0 outside the indices -/
theorem ldltSolve_off {S : Mat ℝ n} {I : Finset (Fin n)} {tol : ℝ} {cs : List (LdltCol ℝ n)} (h : Dec S I cs) (b : Vec ℝ n) {i : Fin n} (hi : i ∉ I) :
    ldltSolve tol cs b i = 0 := by
  induction cs generalizing S I b with
  | nil => simp [ldltSolve]
  | cons c cs ih =>
    obtain ⟨h1, -, -, -, h4⟩ := h
    rw [ldltSolve_cons h4]
    have hne : i ≠ c.p := fun e => hi (e ▸ h1)
    simp only [if_neg hne]
    exact ih h4 _ fun h => hi (Finset.mem_of_mem_erase h)

/-- Consistent systems are solved, if no pivot other than 0 is below the tolerance. -/
theorem ldltSolve_spec {S : Mat ℝ n} (hS : SymR S) {I : Finset (Fin n)} {tol : ℝ} {cs : List (LdltCol ℝ n)} (h : Dec S I cs) (htol : ∀ c ∈ cs, c.d = 0 ∨ tol < |c.d|) (h0 : 0 ≤ tol)
    {b y : Vec ℝ n} (hb : ∀ i ∈ I, b i = ∑ j ∈ I, S i j * y j) : ∀ i ∈ I, ∑ j ∈ I, S i j * ldltSolve tol cs b j = b i := by
  induction cs generalizing S I b with
  | nil => rw [show I = ∅ from h]; simp
  | cons c cs ih =>
    obtain ⟨h1, h2, h3, -, h4⟩ := h
    have hbp : b c.p = c.d * (y c.p + ∑ j ∈ I.erase c.p, c.l j * y j) := by
      rw [hb _ h1, ← Finset.add_sum_erase I _ h1, h2, mul_add, Finset.mul_sum]
      congr 1
      refine Finset.sum_congr rfl fun j hj => ?_
      rw [hS c.p j, h3 j hj]; ring
    have hb' : ∀ i ∈ I.erase c.p, b i - b c.p * c.l i = ∑ j ∈ I.erase c.p, (S i j - c.d * c.l i * c.l j) * y j := by
      intro i hi
      rw [hbp, hb i (Finset.mem_of_mem_erase hi), ← Finset.add_sum_erase I _ h1, h3 i hi]
      have : ∑ j ∈ I.erase c.p, (S i j - c.d * c.l i * c.l j) * y j = ∑ j ∈ I.erase c.p, S i j * y j - c.d * c.l i * ∑ j ∈ I.erase c.p, c.l j * y j := by
        rw [Finset.mul_sum, ← Finset.sum_sub_distrib]
        exact Finset.sum_congr rfl fun j _ => by ring
      rw [this]; ring
    have hx := ih (sub_sym hS c.d c.l) h4 (fun c' hc' => htol c' (List.mem_cons_of_mem _ hc')) hb'
    rw [ldltSolve_cons h4]
    generalize ldltSolve tol cs (fun i => b i - b c.p * c.l i) = x at hx
    generalize hz : (if tol < |c.d| then b c.p / c.d else 0) = z
    have hdz : c.d * z = b c.p := by
      rw [← hz]
      rcases htol c List.mem_cons_self with h | h
      · rw [hbp, h]; simp
      · have : c.d ≠ 0 := fun e => by rw [e, abs_zero] at h; linarith
        rw [if_pos h]; field_simp
    have hxs : ∀ i ∈ I, ∑ j ∈ I, S i j * (if j = c.p then z - ∑ j ∈ I.erase c.p, c.l j * x j else x j) =
        S i c.p * (z - ∑ j ∈ I.erase c.p, c.l j * x j) + ∑ j ∈ I.erase c.p, S i j * x j := by
      intro i _
      rw [← Finset.add_sum_erase I _ h1, if_pos rfl]
      congr 1
      exact Finset.sum_congr rfl fun j hj => by rw [if_neg (Finset.ne_of_mem_erase hj)]
    intro i hi
    rw [hxs i hi]
    by_cases hip : i = c.p
    · subst hip
      have : ∑ j ∈ I.erase c.p, S c.p j * x j = c.d * ∑ j ∈ I.erase c.p, c.l j * x j := by
        rw [Finset.mul_sum]
        refine Finset.sum_congr rfl fun j hj => ?_
        rw [hS c.p j, h3 j hj]; ring
      rw [this, h2, ← hdz]; ring
    · have hi' : i ∈ I.erase c.p := Finset.mem_erase.mpr ⟨hip, hi⟩
      have h5 := hx i hi'
      have : ∑ j ∈ I.erase c.p, (S i j - c.d * c.l i * c.l j) * x j = ∑ j ∈ I.erase c.p, S i j * x j - c.d * c.l i * ∑ j ∈ I.erase c.p, c.l j * x j := by
        rw [Finset.mul_sum, ← Finset.sum_sub_distrib]
        exact Finset.sum_congr rfl fun j _ => by ring
      rw [this] at h5
      rw [h3 i hi']
      have e : b i = ∑ j ∈ I.erase c.p, S i j * x j - c.d * c.l i * ∑ j ∈ I.erase c.p, c.l j * x j + c.d * z * c.l i := by rw [hdz]; linarith
      rw [e]; ring

/-- the inner product of right hand side and solution is a sum over the pivots of squares -/
theorem ldltSolve_dot {S : Mat ℝ n} {I : Finset (Fin n)} {tol : ℝ} {cs : List (LdltCol ℝ n)} (h : Dec S I cs) (hpos : ∀ c ∈ cs, 0 ≤ c.d) (h0 : 0 ≤ tol) (b : Vec ℝ n) :
    0 ≤ ∑ i ∈ I, b i * ldltSolve tol cs b i ∧ (∑ i ∈ I, b i * ldltSolve tol cs b i = 0 → ∀ i ∈ I, ldltSolve tol cs b i = 0) := by
  induction cs generalizing S I b with
  | nil => rw [show I = ∅ from h]; simp
  | cons c cs ih =>
    obtain ⟨h1, h2, h3, -, h4⟩ := h
    obtain ⟨i1, i2⟩ := ih h4 (fun c' hc' => hpos c' (List.mem_cons_of_mem _ hc')) fun i => b i - b c.p * c.l i
    rw [ldltSolve_cons h4]
    generalize ldltSolve tol cs (fun i => b i - b c.p * c.l i) = x at i1 i2
    have hzz : 0 ≤ b c.p * (if tol < |c.d| then b c.p / c.d else 0) ∧ (b c.p * (if tol < |c.d| then b c.p / c.d else 0) = 0 → (if tol < |c.d| then b c.p / c.d else 0) = 0) := by
      split
      next ht =>
        have hd : 0 < c.d := (hpos c List.mem_cons_self).lt_of_ne' fun e => by rw [e, abs_zero] at ht; linarith
        refine ⟨by rw [← mul_div_assoc]; exact div_nonneg (mul_self_nonneg _) hd.le, fun h => ?_⟩
        rcases mul_eq_zero.mp h with h | h
        · rw [h, zero_div]
        · exact h
      · simp
    generalize (if tol < |c.d| then b c.p / c.d else 0) = z at hzz
    have e : ∑ i ∈ I, b i * (if i = c.p then z - ∑ j ∈ I.erase c.p, c.l j * x j else x i) =
        b c.p * z + ∑ i ∈ I.erase c.p, (b i - b c.p * c.l i) * x i := by
      rw [← Finset.add_sum_erase I _ h1, if_pos rfl]
      have e1 : ∑ i ∈ I.erase c.p, b i * (if i = c.p then z - ∑ j ∈ I.erase c.p, c.l j * x j else x i) = ∑ i ∈ I.erase c.p, b i * x i :=
        Finset.sum_congr rfl fun j hj => by rw [if_neg (Finset.ne_of_mem_erase hj)]
      have e2 : ∑ i ∈ I.erase c.p, (b i - b c.p * c.l i) * x i = ∑ i ∈ I.erase c.p, b i * x i - b c.p * ∑ j ∈ I.erase c.p, c.l j * x j := by
        rw [Finset.mul_sum, ← Finset.sum_sub_distrib]
        exact Finset.sum_congr rfl fun j _ => by ring
      rw [e1, e2]; ring
    rw [e]
    refine ⟨add_nonneg hzz.1 i1, fun h => ?_⟩
    have hz0 := hzz.2 (by linarith [hzz.1])
    have hx0 := i2 (by linarith [hzz.1])
    intro i hi
    show (if i = c.p then z - ∑ j ∈ I.erase c.p, c.l j * x j else x i) = 0
    by_cases hip : i = c.p
    · rw [if_pos hip, hz0, Finset.sum_eq_zero fun j hj => by rw [hx0 j hj, mul_zero]]; simp
    · rw [if_neg hip]; exact hx0 i (Finset.mem_erase.mpr ⟨hip, hi⟩)

theorem dec_psd {S : Mat ℝ n} (hS : SymR S) {I : Finset (Fin n)} {cs : List (LdltCol ℝ n)} (h : Dec S I cs) (hpos : ∀ c ∈ cs, 0 ≤ c.d) (v : Vec ℝ n) : 0 ≤ qf S I v := by
  induction cs generalizing S I with
  | nil => rw [show I = ∅ from h]; simp [qf]
  | cons c cs ih =>
    obtain ⟨h1, h2, h3, -, h4⟩ := h
    rw [qf_split hS h1 h2 h3]
    have := ih (sub_sym hS c.d c.l) h4 fun c' hc' => hpos c' (List.mem_cons_of_mem _ hc')
    have := mul_nonneg (hpos c List.mem_cons_self) (sq_nonneg (v c.p + ∑ j ∈ I.erase c.p, c.l j * v j))
    linarith

/-! ### The loop -/

theorem ldltPick_mem (A : Mat ℝ n) (a : Fin n) (t : List (Fin n)) : ldltPick A a t ∈ a :: t := by
  unfold ldltPick
  induction t generalizing a with
  | nil => simp
  | cons i t ih =>
    rw [List.foldl_cons]
    have h := ih (if lt (absF (A a a)) (absF (A i i)) then i else a)
    rcases List.mem_cons.mp h with h | h
    · rw [h]; split <;> simp
    · exact List.mem_cons_of_mem _ (List.mem_cons_of_mem _ h)

/-- no diagonal coefficient is larger than that of the pivot -/
theorem ldltPick_max (A : Mat ℝ n) (a : Fin n) (t : List (Fin n)) : ∀ i ∈ a :: t, |A i i| ≤ |A (ldltPick A a t) (ldltPick A a t)| := by
  unfold ldltPick
  induction t generalizing a with
  | nil => simp
  | cons j t ih =>
    intro i hi
    rw [List.foldl_cons]
    generalize hc : (if lt (absF (A a a)) (absF (A j j)) = true then j else a) = c
    have h := ih c
    have hsel := h c List.mem_cons_self
    have hboth : |A a a| ≤ |A c c| ∧ |A j j| ≤ |A c c| := by
      rw [← hc]
      by_cases hlt : |A a a| < |A j j|
      · have : lt (absF (A a a)) (absF (A j j)) = true := by simpa [absF_real] using hlt
        rw [if_pos this]; exact ⟨hlt.le, le_refl _⟩
      · have : ¬ lt (absF (A a a)) (absF (A j j)) = true := by simpa [absF_real] using hlt
        rw [if_neg this]; exact ⟨le_refl _, not_lt.mp hlt⟩
    rcases List.mem_cons.mp hi with rfl | hi
    · exact hboth.1.trans hsel
    · rcases List.mem_cons.mp hi with rfl | hi
      · exact hboth.2.trans hsel
      · exact h i (List.mem_cons_of_mem _ hi)

theorem ldltSwap_spec {a p : Fin n} {t : List (Fin n)} (hn : (a :: t).Nodup) (hp : p ∈ a :: t) :
    (ldltSwap a p t).Nodup ∧ (ldltSwap a p t).toFinset = (a :: t).toFinset.erase p ∧ (ldltSwap a p t).length = t.length := by
  obtain ⟨ha, ht⟩ := List.nodup_cons.mp hn
  refine ⟨?_, ?_, by simp [ldltSwap]⟩
  · unfold ldltSwap
    refine (List.nodup_map_iff_inj_on ht).mpr fun i hi j hj h => ?_
    by_cases h1 : i = p <;> by_cases h2 : j = p
    · rw [h1, h2]
    · rw [if_pos h1, if_neg h2] at h; exact absurd (h ▸ hj) ha
    · rw [if_neg h1, if_pos h2] at h; exact absurd (h ▸ hi) ha
    · rwa [if_neg h1, if_neg h2] at h
  · ext i
    simp only [ldltSwap, List.mem_toFinset, List.mem_map, Finset.mem_erase, List.mem_cons]
    constructor
    · rintro ⟨j, hj, rfl⟩
      by_cases h : j = p
      · subst h
        rw [if_pos rfl]
        exact ⟨fun e => ha (e ▸ hj), Or.inl rfl⟩
      · rw [if_neg h]; exact ⟨h, Or.inr hj⟩
    · rintro ⟨hne, rfl | hi⟩
      · rcases List.mem_cons.mp hp with rfl | hp
        · exact absurd rfl hne
        · exact ⟨p, hp, if_pos rfl⟩
      · exact ⟨i, hi, if_neg hne⟩

/-- a matrix of zeros is decomposed into zeros -/
theorem dec_zero {S : Mat ℝ n} (rem : List (Fin n)) (hn : rem.Nodup) (h : ∀ i ∈ rem, ∀ j ∈ rem, S i j = 0) :
    Dec S rem.toFinset (rem.map fun j => ⟨j, S j j, fun _ => 0⟩) := by
  have key : ∀ (T : Mat ℝ n), (∀ i ∈ rem, ∀ j ∈ rem, T i j = 0) → Dec T rem.toFinset (rem.map fun j => ⟨j, S j j, fun _ => 0⟩) := by
    induction rem with
    | nil => intro T _; simp [Dec]
    | cons a t ih =>
      intro T hT
      obtain ⟨ha, ht⟩ := List.nodup_cons.mp hn
      have hS0 : S a a = 0 := h a List.mem_cons_self a List.mem_cons_self
      have he : (a :: t).toFinset.erase a = t.toFinset := by
        rw [List.toFinset_cons, Finset.erase_insert (by simpa using ha)]
      refine ⟨by simp, by simp only [hS0]; exact hT a List.mem_cons_self a List.mem_cons_self, fun i hi => ?_, fun _ _ _ => rfl, ?_⟩
      · simp only [hS0, zero_mul]
        rw [he, List.mem_toFinset] at hi
        exact hT i (List.mem_cons_of_mem _ hi) a List.mem_cons_self
      · rw [he]
        refine ih ht (fun i hi j hj => h i (List.mem_cons_of_mem _ hi) j (List.mem_cons_of_mem _ hj)) _ fun i hi j hj => ?_
        simp only [hS0, zero_mul, sub_zero]
        exact hT i (List.mem_cons_of_mem _ hi) j (List.mem_cons_of_mem _ hj)
  exact key S h

theorem isPos_sign {s : LdltSign} {d : ℝ} (h : ldltSign s d = .pos ∨ ldltSign s d = .zero) : (s = .pos ∨ s = .zero) ∧ 0 ≤ d := by
  unfold ldltSign at h
  cases s with
  | zero =>
    refine ⟨Or.inr rfl, ?_⟩
    by_contra hd
    have hd : d < 0 := not_le.mp hd
    have h' : ¬ 0 < d := not_lt.mpr hd.le
    simp [hd, h'] at h
  | pos =>
    refine ⟨Or.inl rfl, ?_⟩
    by_contra hd
    have hd : d < 0 := not_le.mp hd
    simp [hd] at h
  | neg => simp at h; split at h <;> simp at h
  | indef => simp at h

/-- What the loop returns is a decomposition, with no negative pivots if the sign says so. -/
theorem ldltGo_dec {A : Mat ℝ n} (hA : SymR A) : ∀ (k : Nat) (done : List (LdltCol ℝ n)) (rem : List (Fin n)) (found : Bool) (s : LdltSign) (cols : List (LdltCol ℝ n)) (s' : LdltSign),
    rem.length = k → rem.Nodup → ldltGo A k done rem found s = some (cols, s') →
    ∃ cs, cols = done ++ cs ∧ Dec (ldltRest A done) rem.toFinset cs ∧ (s' = .pos ∨ s' = .zero → (s = .pos ∨ s = .zero ∨ done = []) ∧ ∀ c ∈ cs, 0 ≤ c.d)
  | 0, done, [], found, s, cols, s', _, _, h => by
    unfold ldltGo at h
    obtain ⟨rfl, rfl⟩ := Prod.mk.inj (Option.some.inj h)
    exact ⟨[], by simp, by simp [Dec], fun h => ⟨h.elim Or.inl fun h => Or.inr (Or.inl h), by simp⟩⟩
  | k + 1, done, a :: t, found, s, cols, s', hk, hn, h => by
    have hp := ldltPick_mem A a t
    obtain ⟨w1, w2, w3⟩ := ldltSwap_spec hn hp
    have hlen : (ldltSwap a (ldltPick A a t) t).length = k := by rw [w3]; simpa using hk
    have hsym := ldltRest_sym hA done
    unfold ldltGo at h
    simp only at h
    generalize hpp : ldltPick A a t = p at *
    split at h
    next hz =>
      -- the entire diagonal is 0
      simp only [Bool.and_eq_true, Bool.not_eq_true', List.isEmpty_iff] at hz
      obtain ⟨hz, rfl⟩ := hz
      split at h
      next hall =>
        obtain ⟨rfl, rfl⟩ := Prod.mk.inj (Option.some.inj h)
        rw [ldltRest_nil] at hz hsym ⊢
        have hd0 : A p p = 0 := by
          have : ¬ 0 < |A p p| := by simpa [absF_real] using hz
          exact abs_eq_zero.mp (le_antisymm (not_lt.mp this) (abs_nonneg _))
        have hall' : ∀ i ∈ a :: t, ∀ j ∈ a :: t, A i j = 0 := by
          intro i hi j hj
          have h1 := List.all_eq_true.mp (List.all_eq_true.mp hall j hj) i hi
          simp only [Bool.or_eq_true, decide_eq_true_eq] at h1
          rcases h1 with h1 | h1
          · subst h1
            have := ldltPick_max A a t i hi
            rw [hpp, hd0, abs_zero] at this
            exact abs_eq_zero.mp (le_antisymm this (abs_nonneg _))
          · simpa using h1
        refine ⟨_, (List.nil_append _).symm, ?_, fun _ => ⟨Or.inr (Or.inr rfl), ?_⟩⟩
        · have := dec_zero (a :: t) hn hall'
          simpa using this
        · intro c hc
          obtain ⟨j, hj, rfl⟩ := List.mem_map.mp hc
          exact (hall' j hj j hj).ge
      · cases h
    · split at h
      next hv =>
        split at h
        · cases h
        · have hd : 0 < |ldltRest A done p p| := by simpa [absF_real] using hv
          have hd0 : ldltRest A done p p ≠ 0 := abs_pos.mp hd
          obtain ⟨cs, e, hdec, hsg⟩ := ldltGo_dec hA k _ _ _ _ cols s' hlen w1 h
          refine ⟨_ :: cs, by rw [e, List.append_assoc]; rfl, ⟨by simpa using hp, rfl, fun i hi => ?_, fun h0 => absurd h0 hd0, ?_⟩, fun hs => ?_⟩
          · simp only [RealOps.div_eq]; field_simp
          · rw [← w2]
            convert hdec using 1
            funext i j
            rw [ldltRest_snoc]
          · obtain ⟨h1, h2⟩ := hsg hs
            have h3 : ldltSign s (ldltRest A done p p) = .pos ∨ ldltSign s (ldltRest A done p p) = .zero := by
              rcases h1 with h1 | h1 | h1
              · exact Or.inl h1
              · exact Or.inr h1
              · simp at h1
            obtain ⟨h4, h5⟩ := isPos_sign h3
            refine ⟨h4.elim Or.inl fun h => Or.inr (Or.inl h), fun c hc => ?_⟩
            rcases List.mem_cons.mp hc with rfl | hc
            · exact h5
            · exact h2 c hc
      next hv =>
        split at h
        next hall =>
          have hd0 : ldltRest A done p p = 0 := by
            have : ¬ 0 < |ldltRest A done p p| := by simpa [absF_real] using hv
            exact abs_eq_zero.mp (le_antisymm (not_lt.mp this) (abs_nonneg _))
          obtain ⟨cs, e, hdec, hsg⟩ := ldltGo_dec hA k _ _ _ _ cols s' hlen w1 h
          refine ⟨_ :: cs, by rw [e, List.append_assoc]; rfl, ⟨by simpa using hp, rfl, fun i hi => ?_, fun _ i hi => ?_, ?_⟩, fun hs => ?_⟩
          · simp only [hd0, zero_mul]
            have hi' : i ∈ ldltSwap a p t := by rw [← w2] at hi; simpa using hi
            simpa using List.all_eq_true.mp hall i hi'
          · have hi' : i ∈ ldltSwap a p t := by rw [← w2] at hi; simpa using hi
            simpa using List.all_eq_true.mp hall i hi'
          · rw [← w2]
            convert hdec using 1
            funext i j
            rw [ldltRest_snoc]
          · obtain ⟨h1, h2⟩ := hsg hs
            have h3 : ldltSign s (ldltRest A done p p) = .pos ∨ ldltSign s (ldltRest A done p p) = .zero := by
              rcases h1 with h1 | h1 | h1
              · exact Or.inl h1
              · exact Or.inr h1
              · simp at h1
            obtain ⟨h4, h5⟩ := isPos_sign h3
            refine ⟨h4.elim Or.inl fun h => Or.inr (Or.inl h), fun c hc => ?_⟩
            rcases List.mem_cons.mp hc with rfl | hc
            · exact h5
            · exact h2 c hc
        · cases h
  | 0, _, _ :: _, _, _, _, _, h, _, _ => by simp at h
  | _ + 1, _, [], _, _, _, _, h, _, _ => by simp at h

/-- On positive definite matrices the loop succeeds, with the sign of a positive matrix. -/
theorem ldltGo_pd {A : Mat ℝ n} (hA : SymR A) : ∀ (k : Nat) (done : List (LdltCol ℝ n)) (rem : List (Fin n)) (s : LdltSign),
    rem.length = k → rem.Nodup → s = .pos ∨ s = .zero → (∀ v, (∃ i ∈ rem, v i ≠ 0) → 0 < qf (ldltRest A done) rem.toFinset v) →
    ∃ cols s', ldltGo A k done rem false s = some (cols, s') ∧ (s' = .pos ∨ s' = .zero)
  | 0, done, [], s, _, _, hs, _ => ⟨done, s, by simp [ldltGo], hs⟩
  | k + 1, done, a :: t, s, hk, hn, hs, hpd => by
    have hp := ldltPick_mem A a t
    obtain ⟨w1, w2, w3⟩ := ldltSwap_spec hn hp
    have hlen : (ldltSwap a (ldltPick A a t) t).length = k := by rw [w3]; simpa using hk
    have hsym := ldltRest_sym hA done
    unfold ldltGo
    simp only
    generalize ldltPick A a t = p at *
    have hp' : p ∈ (a :: t).toFinset := by simpa using hp
    have hd : 0 < ldltRest A done p p := by
      have h1 := hpd (Pi.single p 1) ⟨p, hp, by simp⟩
      have h2 : qf (ldltRest A done) (a :: t).toFinset (Pi.single p 1) = ldltRest A done p p := by
        unfold qf
        rw [Finset.sum_eq_single_of_mem p hp' fun i _ hi => Finset.sum_eq_zero fun j _ => by rw [Pi.single_eq_of_ne hi]; ring,
          Finset.sum_eq_single_of_mem p hp' fun j _ hj => by rw [Pi.single_eq_of_ne hj]; ring]
        simp
      rwa [h2] at h1
    have hv : lt (ofInt 0) (absF (ldltRest A done p p)) = true := by simpa [absF_real] using abs_pos.mpr hd.ne'
    simp only [hv, Bool.not_true, Bool.false_and, Bool.false_eq_true, if_false, if_true]
    refine ldltGo_pd hA k _ _ _ hlen w1 ?_ fun v hv => ?_
    · rcases hs with rfl | rfl <;> simp [ldltSign, hd, hd.le]
    · set l : Vec ℝ n := fun i => div (ldltRest A done i p) (ldltRest A done p p) with hl
      have hS : qf (ldltRest A (done ++ [⟨p, ldltRest A done p p, l⟩])) (ldltSwap a p t).toFinset v =
          qf (fun i j => ldltRest A done i j - ldltRest A done p p * l i * l j) ((a :: t).toFinset.erase p) v := by
        rw [w2]; congr 1; funext i j; rw [ldltRest_snoc]
      rw [hS]
      let u : Vec ℝ n := fun i => if i = p then -∑ j ∈ (a :: t).toFinset.erase p, l j * v j else v i
      have hu : ∀ j ∈ (a :: t).toFinset.erase p, u j = v j := fun j hj => if_neg (Finset.ne_of_mem_erase hj)
      have h1 := hpd u (by
        obtain ⟨i, hi, hvi⟩ := hv
        have hi' : i ∈ (a :: t).toFinset.erase p := by rw [← w2]; simpa using hi
        exact ⟨i, by simpa using Finset.mem_of_mem_erase hi', by rw [hu i hi']; exact hvi⟩)
      rw [qf_split hsym hp' rfl (l := l) (fun i _ => by simp only [hl, RealOps.div_eq]; field_simp)] at h1
      have h2 : u p + ∑ j ∈ (a :: t).toFinset.erase p, l j * u j = 0 := by
        rw [Finset.sum_congr rfl fun j hj => by rw [hu j hj]]
        simp [u]
      rw [h2] at h1
      have h3 : qf (fun i j => ldltRest A done i j - ldltRest A done p p * l i * l j) ((a :: t).toFinset.erase p) u =
          qf (fun i j => ldltRest A done i j - ldltRest A done p p * l i * l j) ((a :: t).toFinset.erase p) v := by
        unfold qf
        exact Finset.sum_congr rfl fun i hi => Finset.sum_congr rfl fun j hj => by rw [hu i hi, hu j hj]
      rw [h3] at h1
      simpa using h1
  | 0, _, _ :: _, _, h, _, _, _ => by simp at h
  | _ + 1, _, [], _, h, _, _, _ => by simp at h

end

/-! ### C104 -/

section
variable {n : Nat} {tol : ℝ}

theorem eigenLdlt_some {A : Mat ℝ n} (hA : SymR A) {b x : Vec ℝ n} (h : eigenLdlt tol n A b = some x) :
    ∃ cols, x = ldltSolve tol cols b ∧ Dec A Finset.univ cols ∧ (∀ c ∈ cols, 0 ≤ c.d) ∧ ∀ b', eigenLdlt tol n A b' = some (ldltSolve tol cols b') := by
  unfold eigenLdlt at h
  split at h
  · cases h
  next cols s hgo =>
    split at h
    next hs =>
      obtain ⟨cs, e, hdec, hpos⟩ := ldltGo_dec hA n [] _ _ _ cols s (List.length_finRange) (List.nodup_finRange n) hgo
      rw [List.nil_append] at e
      subst e
      rw [ldltRest_nil, List.toFinset_finRange] at hdec
      refine ⟨_, (Option.some.inj h).symm, hdec, (hpos hs).2, fun b' => ?_⟩
      unfold eigenLdlt
      rw [hgo]
      simp only [if_pos hs]
    · cases h

/-- **C104** (partial): positive definite systems are solved, with exact pivots (`tol = 0`). Missing: other systems are not refused, see `C104_wrong_answer`. -/
theorem C104_solves_partial {A : Mat ℝ n} (hA : PD A) (b : Vec ℝ n) : ∃ x, eigenLdlt 0 n A b = some x ∧ mv A x = b := by
  obtain ⟨cols, s, hgo, hs⟩ := ldltGo_pd hA.1 n [] (List.finRange n) .zero List.length_finRange (List.nodup_finRange n) (Or.inr rfl) (fun v ⟨i, _, hi⟩ => by
    rw [ldltRest_nil, List.toFinset_finRange, qf_univ]
    exact hA.2 v fun h => hi (by rw [h]; rfl))
  have h1 : eigenLdlt 0 n A b = some (ldltSolve 0 cols b) := by
    unfold eigenLdlt
    rw [hgo]
    simp only [if_pos hs]
  obtain ⟨cols', -, hdec, hpos, hall⟩ := eigenLdlt_some hA.1 h1
  obtain ⟨y, rfl⟩ := pd_surj hA b
  refine ⟨_, hall _, ?_⟩
  funext i
  have := ldltSolve_spec hA.1 hdec (tol := 0) (fun c hc => by
    rcases (hpos c hc).lt_or_eq with h | h
    · exact Or.inr (abs_pos.mpr h.ne')
    · exact Or.inl h.symm) (le_refl _) (b := mv A y) (y := y) (fun i _ => rfl) i (Finset.mem_univ _)
  exact this

/-- **C104**: an answer is given for positive semidefinite matrices only, whatever the tolerance. -/
theorem C104_psd {A : Mat ℝ n} (hA : SymR A) {b x : Vec ℝ n} (h : eigenLdlt tol n A b = some x) : PSD A := by
  obtain ⟨cols, -, hdec, hpos, -⟩ := eigenLdlt_some hA h
  exact ⟨hA, fun v => by rw [← qf_univ]; exact dec_psd hA hdec hpos v⟩

/-- **C104**: whether there is an answer depends on the matrix only; if there is one, consistent systems are solved. -/
theorem C104_consistent {A : Mat ℝ n} (hA : SymR A) {b x : Vec ℝ n} (h : eigenLdlt 0 n A b = some x) :
    (∀ b', (eigenLdlt 0 n A b').isSome) ∧ ((∃ y, b = mv A y) → mv A x = b) := by
  obtain ⟨cols, rfl, hdec, hpos, hall⟩ := eigenLdlt_some hA h
  refine ⟨fun b' => by rw [hall]; rfl, fun ⟨y, hy⟩ => ?_⟩
  funext i
  have := ldltSolve_spec hA hdec (tol := 0) (fun c hc => by
    rcases (hpos c hc).lt_or_eq with h | h
    · exact Or.inr (abs_pos.mpr h.ne')
    · exact Or.inl h.symm) (le_refl _) (b := b) (y := y) (fun i _ => by rw [hy]; rfl) i (Finset.mem_univ _)
  exact this

/-- a singular positive semidefinite matrix; the first two columns are the same -/
def twin3 : Mat ℝ 3 := !![4, 4, 0; 4, 4, 0; 0, 0, 1]

/-- **C104 is violated**: a singular positive semidefinite matrix can be refused, with every right hand side. The pivots are chosen by the diagonal of the original matrix, so that
a pivot that becomes 0 can come before one that does not. -/
theorem C104_refuses (b : Vec ℝ 3) : PSD twin3 ∧ eigenLdlt tol 3 twin3 b = none := by
  constructor
  · refine ⟨fun i j => by fin_cases i <;> fin_cases j <;> rfl, fun v => ?_⟩
    simp [dotR, mv, twin3, Fin.sum_univ_succ]
    nlinarith [sq_nonneg (v 0 + v 1), sq_nonneg (v 2)]
  · have : ldltGo twin3 3 [] (List.finRange 3) false .zero = none := by
      simp [ldltGo, ldltPick, ldltSwap, List.finRange_succ, twin3, absF_real, ldltRest, ldltDot]
    unfold eigenLdlt
    rw [this]

/-- **C104 is violated**: of a system without solution, with a singular matrix, an answer is given. -/
theorem C104_wrong_answer (s : ℝ) (h0 : 0 ≤ tol) (ht : tol < 1) : ∃ x, eigenLdlt tol 2 (fun _ _ => 1) ![s, 0] = some x ∧ x = ![s, 0] ∧ (s ≠ 0 → mv (fun _ _ => 1) x ≠ ![s, 0]) := by
  have hgo : ldltGo (fun _ _ : Fin 2 => (1 : ℝ)) 2 [] (List.finRange 2) false .zero = some ([⟨0, 1, fun _ => 1⟩, ⟨1, 0, fun _ => 0⟩], .pos) := by
    simp [ldltGo, ldltPick, ldltSwap, List.finRange_succ, absF_real, ldltRest, ldltDot, ldltSign]
  refine ⟨![s, 0], ?_, rfl, ?_⟩
  · unfold eigenLdlt
    rw [hgo]
    simp [ldltSolve, absF_real, ht, not_lt.mpr h0]
    funext i
    fin_cases i <;> simp
  · intro hs h
    have := congrFun h 1
    simp [mv, Fin.sum_univ_succ] at this
    exact hs this

/-- **C104 is violated**: of a singular matrix a matrix that is not its inverse is returned by `InvCov`. -/
theorem C104_cov {inv : (n : Nat) → Mat ℝ n → Mat ℝ n} (h0 : 0 ≤ tol) (ht : tol < 1) :
    ∃ C, denseInvCov (eigenLinAlg tol inv) ⟨2, fun _ _ => 1⟩ = some ⟨2, C⟩ ∧ C = ![![1, 0], ![0, 0]] ∧ ¬ InvOf (fun _ _ => 1) C ∧ ∀ C' : Mat ℝ 2, ¬ InvOf (fun _ _ => 1) C' := by
  have hgo : ldltGo (fun _ _ : Fin 2 => (1 : ℝ)) 2 [] (List.finRange 2) false .zero = some ([⟨0, 1, fun _ => 1⟩, ⟨1, 0, fun _ => 0⟩], .pos) := by
    simp [ldltGo, ldltPick, ldltSwap, List.finRange_succ, absF_real, ldltRest, ldltDot, ldltSign]
  have hu : symUpper (fun _ _ : Fin 2 => (1 : ℝ)) = fun _ _ => 1 := by funext i j; simp [symUpper]
  have hs : ∀ j : Fin 2, eigenLdlt tol 2 (fun _ _ => 1) (unitCol j) = some fun i => (![![1, 0], ![0, 0]] : Fin 2 → Fin 2 → ℝ) i j := by
    intro j
    unfold eigenLdlt
    rw [hgo]
    simp only [ldltSolve, absF_real]
    rw [if_pos (Or.inl trivial)]
    congr 1
    funext i
    fin_cases i <;> fin_cases j <;> simp [unitCol, ht, not_lt.mpr h0]
  have hno : ∀ C' : Mat ℝ 2, ¬ InvOf (fun _ _ => 1) C' := by
    intro C' h
    have h1 := congrFun (h ![1, 0]) 0
    have h2 := congrFun (h ![1, 0]) 1
    have : mv (fun _ _ : Fin 2 => (1 : ℝ)) (mv C' ![1, 0]) 0 = mv (fun _ _ : Fin 2 => (1 : ℝ)) (mv C' ![1, 0]) 1 := rfl
    rw [h1, h2] at this
    norm_num at this
  refine ⟨_, ?_, rfl, hno _, hno⟩
  unfold denseInvCov
  rw [if_neg (by decide), if_pos (by decide), dif_pos (fun j => by show (eigenLdlt tol 2 _ _).isSome; rw [hu, hs]; rfl)]
  congr 2
  funext i j
  have : ∀ h, (eigenLdlt tol 2 (symUpper fun _ _ => 1) (unitCol j)).get h = fun i => (![![1, 0], ![0, 0]] : Fin 2 → Fin 2 → ℝ) i j := by rw [hu, hs]; intro h; rfl
  exact congrFun (this _) i

/-- hypotheses of `C104_solves_partial`, and of `C104_psd` and `C104_consistent` (which have an answer) -/
example : ∃ A : Mat ℝ 2, PD A ∧ SymR A ∧ A 0 1 ≠ 0 ∧ ∃ x, eigenLdlt 0 2 A ![1, 0] = some x ∧ mv A x = ![1, 0] := by
  have hA : PD (fun i j : Fin 2 => if i = j then (2 : ℝ) else 1) := by
    refine ⟨fun i j => by simp only [eq_comm], fun v hv => ?_⟩
    have : v 0 ≠ 0 ∨ v 1 ≠ 0 := by
      by_contra h; push Not at h; exact hv (by funext i; fin_cases i <;> simp [h])
    simp only [dotR, mv, Fin.sum_univ_two]
    simp
    rcases this with h | h
    · nlinarith [sq_nonneg (v 0 + v 1), sq_nonneg (v 1), pow_pos (abs_pos.mpr h) 2, sq_abs (v 0)]
    · nlinarith [sq_nonneg (v 0 + v 1), sq_nonneg (v 0), pow_pos (abs_pos.mpr h) 2, sq_abs (v 1)]
  obtain ⟨x, h1, h2⟩ := C104_solves_partial hA ![1, 0]
  exact ⟨_, hA, hA.1, by simp, x, h1, h2⟩

/-- the contracts assumed of Eigen by the other properties hold for this decomposition -/
theorem eigenLinAlg_exact {inv : (n : Nat) → Mat ℝ n → Mat ℝ n} (hinv : ∀ n A b, PD A → mv A (mv (inv n A) b) = b) : ExactLinAlg (eigenLinAlg 0 inv) :=
  ⟨fun _ _ b h => C104_solves_partial h b, hinv⟩

theorem eigenLinAlg_pos (h0 : 0 ≤ tol) {inv : (n : Nat) → Mat ℝ n → Mat ℝ n} : PosLDLT (eigenLinAlg tol inv) := by
  refine ⟨fun n A b x hA h => C104_psd hA h, fun n A b x hA h => ?_, fun n A b x hA h hz => ?_⟩
  · obtain ⟨cols, rfl, hdec, hpos, -⟩ := eigenLdlt_some hA h
    exact (ldltSolve_dot hdec hpos h0 b).1
  · obtain ⟨cols, rfl, hdec, hpos, -⟩ := eigenLdlt_some hA h
    funext i
    exact (ldltSolve_dot hdec hpos h0 b).2 hz i (Finset.mem_univ _)

end

end Verif
