import Verif.Lemmas.Twin
import Verif.Props.RankDef
/-!
# Systems with parameters that have no effect

Rows and columns of zeros are added to a system, at any places: `ι` tells where the old ones are.
-/

set_option linter.unusedSectionVars false

namespace Verif
open FloatOps

section
variable {n N : Nat} {tol : ℝ}

/-- `v'` is `v` with zeros added -/
def PadV (ι : Fin n ↪ Fin N) (v : Vec ℝ n) (v' : Vec ℝ N) : Prop := (∀ i, v' (ι i) = v i) ∧ ∀ j, j ∉ Set.range ι → v' j = 0

/-- `A'` is `A` with rows and columns of zeros added -/
def PadM (ι : Fin n ↪ Fin N) (A : Mat ℝ n) (A' : Mat ℝ N) : Prop :=
  (∀ i j, A' (ι i) (ι j) = A i j) ∧ ∀ j, j ∉ Set.range ι → ∀ i, A' i j = 0 ∧ A' j i = 0

variable {ι : Fin n ↪ Fin N}

theorem pad_sum (f : Fin n → ℝ) (f' : Fin N → ℝ) (h : ∀ j, j ∉ Set.range ι → f' j = 0) (h' : ∀ i, f' (ι i) = f i) : ∑ j, f' j = ∑ i, f i :=
  (Fintype.sum_of_injective ι ι.injective f f' h fun i => (h' i).symm).symm

theorem PadV.dotR {u v : Vec ℝ n} {u' v' : Vec ℝ N} (hu : PadV ι u u') (hv : PadV ι v v') : Verif.dotR u' v' = Verif.dotR u v :=
  pad_sum (ι := ι) _ _ (fun j hj => by simp only [hu.2 j hj, zero_mul]) fun i => by simp only [hu.1 i, hv.1 i]

theorem PadM.mv {A : Mat ℝ n} {A' : Mat ℝ N} (hA : PadM ι A A') (v' : Vec ℝ N) : PadV ι (Verif.mv A fun i => v' (ι i)) (Verif.mv A' v') := by
  constructor
  · intro i
    exact pad_sum (ι := ι) _ _ (fun j hj => by simp only [(hA.2 j hj _).1, zero_mul]) fun k => by simp only [hA.1]
  · intro j hj
    exact Finset.sum_eq_zero fun k _ => by simp only [(hA.2 j hj k).2, zero_mul]

theorem PadM.sym {A : Mat ℝ n} {A' : Mat ℝ N} (hA : PadM ι A A') (h : SymR A) : SymR A' := by
  intro i j
  by_cases hi : i ∈ Set.range ι
  · by_cases hj : j ∈ Set.range ι
    · obtain ⟨a, rfl⟩ := hi
      obtain ⟨b, rfl⟩ := hj
      rw [hA.1, hA.1, h a b]
    · rw [(hA.2 j hj i).1, (hA.2 j hj i).2]
  · rw [(hA.2 i hi j).1, (hA.2 i hi j).2]

/-- the quadratic form does not see the added entries -/
theorem PadM.quad {A : Mat ℝ n} {A' : Mat ℝ N} (hA : PadM ι A A') (v' : Vec ℝ N) :
    Verif.dotR v' (Verif.mv A' v') = Verif.dotR (fun i => v' (ι i)) (Verif.mv A fun i => v' (ι i)) := by
  have h := hA.mv v'
  exact pad_sum (ι := ι) _ _ (fun j hj => by simp only [h.2 j hj, mul_zero]) fun i => by simp only [h.1 i]

theorem exists_padV (ι : Fin n ↪ Fin N) (v : Vec ℝ n) : ∃ v', PadV ι v v' := by
  classical
  refine ⟨fun j => if h : j ∈ Set.range ι then v h.choose else 0, fun i => ?_, fun j hj => dif_neg hj⟩
  have h : ι i ∈ Set.range ι := ⟨i, rfl⟩
  simp only [dif_pos h]
  exact congrArg v (ι.injective h.choose_spec)

theorem PadM.psd {A : Mat ℝ n} {A' : Mat ℝ N} (hA : PadM ι A A') (h : PSD A') : PSD A := by
  refine ⟨fun i j => ?_, fun v => ?_⟩
  · rw [← hA.1, ← hA.1]; exact h.1 _ _
  · obtain ⟨v', hv⟩ := exists_padV ι v
    have := h.2 v'
    rw [hA.quad, show (fun i => v' (ι i)) = v from funext hv.1] at this
    exact this

/-! ### The decomposition -/

/-- where the row is 0, the solution is 0 -/
theorem ldltSolve_zero {S : Mat ℝ n} {I : Finset (Fin n)} {cs : List (LdltCol ℝ n)} (h0 : 0 ≤ tol) (h : Dec S I cs) {b : Vec ℝ n} {z : Fin n} (hz : ∀ i, S z i = 0) :
    ldltSolve tol cs b z = 0 := by
  induction cs generalizing S I b with
  | nil => simp [ldltSolve]
  | cons c cs ih =>
    by_cases hzI : z ∉ I
    · exact ldltSolve_off h b hzI
    · have hzI := not_not.mp hzI
      obtain ⟨h1, h2, h3, hl, h4⟩ := h
      rw [ldltSolve_cons h4]
      by_cases hp : z = c.p
      · have hd : c.d = 0 := by rw [← h2, ← hp, hz]
        simp only [if_pos hp]
        rw [Finset.sum_eq_zero fun j hj => by rw [hl hd j hj, zero_mul], hd, abs_zero, if_neg (not_lt.mpr h0), sub_zero]
      · have hm : c.d * c.l z = 0 := by rw [← h3 z (Finset.mem_erase.mpr ⟨hp, hzI⟩), hz]
        have hl0 : c.l z = 0 := by
          rcases mul_eq_zero.mp hm with hd | hl
          · exact hl hd z (Finset.mem_erase.mpr ⟨hp, hzI⟩)
          · exact hl
        simp only [if_neg hp]
        refine ih h4 fun i => ?_
        rw [hz, hl0]; ring

/-- entries of the right hand side in rows of zeros do not matter -/
theorem ldltSolve_congr {S : Mat ℝ n} {I : Finset (Fin n)} {cs : List (LdltCol ℝ n)} (h0 : 0 ≤ tol) (h : Dec S I cs) {b b' : Vec ℝ n}
    (hb : ∀ z ∈ I, b z = b' z ∨ ∀ i, S z i = 0) : ldltSolve tol cs b = ldltSolve tol cs b' := by
  induction cs generalizing S I b b' with
  | nil => simp [ldltSolve]
  | cons c cs ih =>
    obtain ⟨h1, h2, h3, hl, h4⟩ := h
    have key : ldltSolve tol cs (fun i => b i - b c.p * c.l i) = ldltSolve tol cs (fun i => b' i - b' c.p * c.l i) := by
      refine ih h4 fun z hz => ?_
      have hzI := Finset.mem_of_mem_erase hz
      by_cases hd : c.d = 0
      · simp only [hd, hl hd z hz, mul_zero, sub_zero, zero_mul]
        exact hb z hzI
      · rcases hb z hzI with h5 | h5
        · left
          rcases hb c.p h1 with h6 | h6
          · rw [h5, h6]
          · exact absurd (h2 ▸ h6 c.p) hd
        · right
          intro i
          have : c.l z = 0 := by
            have := h3 z hz
            rw [h5] at this
            exact (mul_eq_zero.mp this.symm).resolve_left hd
          rw [h5, this]; ring
    rw [ldltSolve_cons h4, ldltSolve_cons h4, key]
    funext i
    by_cases hp : i = c.p
    · rw [if_pos hp, if_pos hp]
      congr 1
      rcases hb c.p h1 with h6 | h6
      · rw [h6]
      · rw [← h2, h6, abs_zero, if_neg (not_lt.mpr h0), if_neg (not_lt.mpr h0)]
    · rw [if_neg hp, if_neg hp]

theorem ldltRest_zero {A : Mat ℝ n} {done : List (LdltCol ℝ n)} {z : Fin n} (hz : ∀ i, A z i = 0) (hd : ∀ c ∈ done, c.l z = 0) (i : Fin n) : ldltRest A done z i = 0 := by
  unfold ldltRest
  rw [ldltDot_real, hz, List.sum_eq_zero]
  · simp
  · intro x hx
    obtain ⟨c, hc, rfl⟩ := List.mem_map.mp hx
    rw [hd c hc]; ring

/-- with rows of zeros left only, the loop ends -/
theorem ldltGo_zeros {A : Mat ℝ n} (hA : SymR A) : ∀ (k : Nat) (done : List (LdltCol ℝ n)) (rem : List (Fin n)) (found : Bool) (s : LdltSign),
    rem.length = k → rem.Nodup → s = .pos ∨ s = .zero → done ≠ [] → (∀ z ∈ rem, ∀ i, A z i = 0) → (∀ z ∈ rem, ∀ c ∈ done, c.l z = 0) →
    ∃ cols s', ldltGo A k done rem found s = some (cols, s') ∧ (s' = .pos ∨ s' = .zero)
  | 0, done, [], found, s, _, _, hs, _, _, _ => ⟨done, s, by simp [ldltGo], hs⟩
  | k + 1, done, a :: t, found, s, hk, hn, hs, hne, hz, hl => by
    have hp := ldltPick_mem A a t
    obtain ⟨w1, w2, w3⟩ := ldltSwap_spec hn hp
    have hlen : (ldltSwap a (ldltPick A a t) t).length = k := by rw [w3]; simpa using hk
    have hsub : ∀ i ∈ ldltSwap a (ldltPick A a t) t, i ∈ a :: t := fun i hi => by
      have : i ∈ (ldltSwap a (ldltPick A a t) t).toFinset := by simpa using hi
      rw [w2] at this
      simpa using Finset.mem_of_mem_erase this
    unfold ldltGo
    simp only
    generalize ldltPick A a t = p at *
    have hr : ∀ z ∈ a :: t, ∀ i, ldltRest A done z i = 0 := fun z h => ldltRest_zero (hz z h) (hl z h)
    have hv : lt (ofInt 0) (absF (ldltRest A done p p)) = false := by rw [hr p hp]; simp [absF_real]
    have he : done.isEmpty = false := by simpa [List.isEmpty_iff] using hne
    have hall : ((ldltSwap a p t).all fun i => FloatOps.eq (ldltRest A done i p) (ofInt 0)) = true := by
      refine List.all_eq_true.mpr fun i hi => ?_
      rw [hr i (hsub i hi)]; simp
    simp only [hv, he, hall, Bool.not_false, Bool.and_false, Bool.false_eq_true, if_false, if_true]
    refine ldltGo_zeros hA k _ _ _ _ hlen w1 ?_ (by simp) (fun z h => hz z (hsub z h)) fun z h c hc => ?_
    · rw [hr p hp]; rcases hs with rfl | rfl <;> simp [ldltSign]
    · rcases List.mem_append.mp hc with hc | hc
      · exact hl z (hsub z h) c hc
      · rw [List.mem_singleton.mp hc]; exact hr z (hsub z h) p
  | 0, _, _ :: _, _, _, h, _, _, _, _, _ => by simp at h
  | _ + 1, _, [], _, _, h, _, _, _, _, _ => by simp at h

/-- On matrices that are positive definite up to rows and columns of zeros the loop succeeds. -/
theorem ldltGo_pad {A : Mat ℝ n} (hA : SymR A) {Z : Set (Fin n)} (hz : ∀ z ∈ Z, ∀ i, A z i = 0) (hdiag : ∀ i, i ∉ Z → 0 < A i i) :
    ∀ (k : Nat) (done : List (LdltCol ℝ n)) (rem : List (Fin n)) (s : LdltSign),
    rem.length = k → rem.Nodup → s = .pos ∨ s = .zero → (∀ z ∈ Z, ∀ c ∈ done, c.l z = 0) → (done ≠ [] ∨ ∃ i ∈ rem, i ∉ Z) →
    (∀ v, (∃ i ∈ rem, i ∉ Z ∧ v i ≠ 0) → 0 < qf (ldltRest A done) rem.toFinset v) →
    ∃ cols s', ldltGo A k done rem false s = some (cols, s') ∧ (s' = .pos ∨ s' = .zero)
  | 0, done, [], s, _, _, hs, _, _, _ => ⟨done, s, by simp [ldltGo], hs⟩
  | k + 1, done, a :: t, s, hk, hn, hs, hl0, hne, hpd => by
    by_cases hex : ∃ i ∈ a :: t, i ∉ Z
    swap
    · push Not at hex
      exact ldltGo_zeros hA (k + 1) done (a :: t) false s hk hn hs (hne.resolve_right fun ⟨i, hi, h⟩ => h (hex i hi)) (fun z h => hz z (hex z h)) fun z h => hl0 z (hex z h)
    have hp := ldltPick_mem A a t
    obtain ⟨w1, w2, w3⟩ := ldltSwap_spec hn hp
    have hlen : (ldltSwap a (ldltPick A a t) t).length = k := by rw [w3]; simpa using hk
    have hsym := ldltRest_sym hA done
    have hpZ : ldltPick A a t ∉ Z := by
      intro h
      obtain ⟨i, hi, hiZ⟩ := hex
      have := ldltPick_max A a t i hi
      rw [hz _ h, abs_zero] at this
      exact (abs_pos.mpr (hdiag i hiZ).ne').not_ge this
    unfold ldltGo
    simp only
    generalize ldltPick A a t = p at *
    have hp' : p ∈ (a :: t).toFinset := by simpa using hp
    have hd : 0 < ldltRest A done p p := by
      have h1 := hpd (Pi.single p 1) ⟨p, hp, hpZ, by simp⟩
      have h2 : qf (ldltRest A done) (a :: t).toFinset (Pi.single p 1) = ldltRest A done p p := by
        unfold qf
        rw [Finset.sum_eq_single_of_mem p hp' fun i _ hi => Finset.sum_eq_zero fun j _ => by rw [Pi.single_eq_of_ne hi]; ring,
          Finset.sum_eq_single_of_mem p hp' fun j _ hj => by rw [Pi.single_eq_of_ne hj]; ring]
        simp
      rwa [h2] at h1
    have hv : lt (ofInt 0) (absF (ldltRest A done p p)) = true := by simpa [absF_real] using abs_pos.mpr hd.ne'
    simp only [hv, Bool.not_true, Bool.false_and, Bool.false_eq_true, if_false, if_true]
    refine ldltGo_pad hA hz hdiag k _ _ _ hlen w1 ?_ ?_ (Or.inl (by simp)) fun v hv => ?_
    · rcases hs with rfl | rfl <;> simp [ldltSign, hd, hd.le]
    · intro z h c hc
      rcases List.mem_append.mp hc with hc | hc
      · exact hl0 z h c hc
      · rw [List.mem_singleton.mp hc]
        simp only [ldltRest_zero (hz z h) (hl0 z h) p, RealOps.div_eq, zero_div]
    · set l : Vec ℝ n := fun i => div (ldltRest A done i p) (ldltRest A done p p) with hl
      have hS : qf (ldltRest A (done ++ [⟨p, ldltRest A done p p, l⟩])) (ldltSwap a p t).toFinset v =
          qf (fun i j => ldltRest A done i j - ldltRest A done p p * l i * l j) ((a :: t).toFinset.erase p) v := by
        rw [w2]; congr 1; funext i j; rw [ldltRest_snoc]
      rw [hS]
      let u : Vec ℝ n := fun i => if i = p then -∑ j ∈ (a :: t).toFinset.erase p, l j * v j else v i
      have hu : ∀ j ∈ (a :: t).toFinset.erase p, u j = v j := fun j hj => if_neg (Finset.ne_of_mem_erase hj)
      have h1 := hpd u (by
        obtain ⟨i, hi, hiZ, hvi⟩ := hv
        have hi' : i ∈ (a :: t).toFinset.erase p := by rw [← w2]; simpa using hi
        exact ⟨i, by simpa using Finset.mem_of_mem_erase hi', hiZ, by rw [hu i hi']; exact hvi⟩)
      rw [qf_split hsym hp' rfl (l := l) (fun i _ => by simp only [hl, RealOps.div_eq]; field_simp)] at h1
      have h2 : u p + ∑ j ∈ (a :: t).toFinset.erase p, l j * u j = 0 := by
        rw [Finset.sum_congr rfl fun j hj => by rw [hu j hj]]
        simp [u]
      rw [h2] at h1
      have h3 : qf (fun i j => ldltRest A done i j - ldltRest A done p p * l i * l j) ((a :: t).toFinset.erase p) u =
          qf (fun i j => ldltRest A done i j - ldltRest A done p p * l i * l j) ((a :: t).toFinset.erase p) v := by
        unfold qf
        exact Finset.sum_congr rfl fun i hi => Finset.sum_congr rfl fun j hj => by rw [hu i hi, hu j hj]
      rw [h3] at h1
      simpa using h1
  | 0, _, _ :: _, _, h, _, _, _, _, _ => by simp at h
  | _ + 1, _, [], _, h, _, _, _, _, _ => by simp at h

/-- the linear solver treats the matrix with and without zeros alike -/
def PadOk (L : LinAlg ℝ) (ι : Fin n ↪ Fin N) (A : Mat ℝ n) : Prop :=
  ∀ A' b b', PadM ι A A' → PadV ι b b' → Option.Rel (PadV ι) (L.ldlt n A b) (L.ldlt N A' b')

/-- positive definite up to rows and columns of zeros -/
def SemiPD (A : Mat ℝ n) : Prop := PSD A ∧ (∀ i, A i i = 0 → ∀ j, A i j = 0) ∧ ∀ v, (∃ i, A i i ≠ 0 ∧ v i ≠ 0) → 0 < dotR v (mv A v)

theorem PD.semi {A : Mat ℝ n} (h : PD A) : SemiPD A :=
  ⟨h.psd, fun i hi => absurd hi (pd_diag h i).ne', fun v ⟨i, _, hi⟩ => h.2 v fun h0 => hi (by rw [h0]; rfl)⟩

theorem PadM.semi {A : Mat ℝ n} {A' : Mat ℝ N} (hA : PadM ι A A') (h : SemiPD A) : SemiPD A' := by
  refine ⟨⟨hA.sym h.1.1, fun v => by rw [hA.quad]; exact h.1.2 _⟩, fun i hi j => ?_, fun v ⟨i, hi, hv⟩ => ?_⟩
  · by_cases hir : i ∈ Set.range ι
    · by_cases hjr : j ∈ Set.range ι
      · obtain ⟨a, rfl⟩ := hir
        obtain ⟨b, rfl⟩ := hjr
        rw [hA.1] at hi ⊢
        exact h.2.1 a hi b
      · exact (hA.2 j hjr i).1
    · exact (hA.2 i hir j).2
  · have hir : i ∈ Set.range ι := by
      by_contra hc; exact hi (hA.2 i hc i).1
    obtain ⟨a, rfl⟩ := hir
    rw [hA.1] at hi
    rw [hA.quad]
    exact h.2.2 _ ⟨a, hi, hv⟩

theorem SemiPD.unique {A : Mat ℝ n} (h : SemiPD A) {x y : Vec ℝ n} (hx : ∀ i, A i i = 0 → x i = 0) (hy : ∀ i, A i i = 0 → y i = 0) (e : ∀ i, A i i ≠ 0 → mv A x i = mv A y i) : x = y := by
  have h0 : dotR (x - y) (mv A (x - y)) = 0 := by
    refine Finset.sum_eq_zero fun i _ => ?_
    by_cases hi : A i i = 0
    · simp [hx i hi, hy i hi]
    · rw [mv_sub]; simp [e i hi]
  funext i
  by_contra hne
  by_cases hi : A i i = 0
  · exact hne (by rw [hx i hi, hy i hi])
  · exact (h.2.2 (x - y) ⟨i, hi, sub_ne_zero.mpr hne⟩).ne' h0

/-- a system with rows of zeros, made regular -/
theorem SemiPD.consistent {A : Mat ℝ n} (h : SemiPD A) (b : Vec ℝ n) : ∃ y, mv A y = fun i => if A i i = 0 then 0 else b i := by
  have hB : PD (fun i j => A i j + if i = j ∧ A i i = 0 then 1 else 0) := by
    refine ⟨fun i j => ?_, fun v hv => ?_⟩
    · show _ + _ = _ + _
      rw [h.1.1 i j]
      by_cases e : i = j
      · subst e; rfl
      · rw [if_neg (fun h => e h.1), if_neg (fun h => e h.1.symm)]
    · have e : dotR v (mv (fun i j => A i j + if i = j ∧ A i i = 0 then 1 else 0) v) = dotR v (mv A v) + ∑ i, if A i i = 0 then v i * v i else 0 := by
        unfold dotR mv
        rw [← Finset.sum_add_distrib]
        refine Finset.sum_congr rfl fun i _ => ?_
        have : ∑ j, (A i j + if i = j ∧ A i i = 0 then 1 else 0) * v j = ∑ j, A i j * v j + if A i i = 0 then v i else 0 := by
          have h2 : ∑ j, (if i = j ∧ A i i = 0 then (1 : ℝ) else 0) * v j = if A i i = 0 then v i else 0 := by
            by_cases hi : A i i = 0
            · simp [hi]
            · simp [hi]
          rw [← h2, ← Finset.sum_add_distrib]
          exact Finset.sum_congr rfl fun j _ => by ring
        rw [this, mul_add]
        congr 1
        split
        · rfl
        · exact mul_zero _
      rw [e]
      have h1 := h.1.2 v
      have h2 : 0 ≤ ∑ i, if A i i = 0 then v i * v i else 0 := Finset.sum_nonneg fun i _ => by split; exacts [mul_self_nonneg _, le_refl _]
      by_cases hex : ∃ i, A i i ≠ 0 ∧ v i ≠ 0
      · have := h.2.2 v hex; linarith
      · push Not at hex
        obtain ⟨i, hi⟩ : ∃ i, v i ≠ 0 := by by_contra hc; push Not at hc; exact hv (funext hc)
        have hi0 : A i i = 0 := by by_contra hc; exact hi (hex i hc)
        have : 0 < ∑ i, if A i i = 0 then v i * v i else 0 :=
          Finset.sum_pos' (fun i _ => by split; exacts [mul_self_nonneg _, le_refl _]) ⟨i, Finset.mem_univ _, by rw [if_pos hi0]; exact mul_self_pos.mpr hi⟩
        linarith
  obtain ⟨y, hy⟩ := pd_surj hB fun i => if A i i = 0 then 0 else b i
  refine ⟨y, ?_⟩
  have hyi : ∀ i, mv A y i + (if A i i = 0 then y i else 0) = if A i i = 0 then 0 else b i := by
    intro i
    have := congrFun hy i
    rw [← this]
    unfold mv
    have h2 : ∑ j, (if i = j ∧ A i i = 0 then (1 : ℝ) else 0) * y j = if A i i = 0 then y i else 0 := by
      by_cases hi : A i i = 0
      · simp [hi]
      · simp [hi]
    rw [← h2, ← Finset.sum_add_distrib]
    exact Finset.sum_congr rfl fun j _ => by ring
  funext i
  have := hyi i
  by_cases hi : A i i = 0
  · simp only [if_pos hi] at this ⊢
    exact Finset.sum_eq_zero fun j _ => by rw [h.2.1 i hi j, zero_mul]
  · simpa [hi] using this

/-- the decomposition solves such systems, up to the rows of zeros -/
theorem eigenLdlt_semi {A : Mat ℝ n} (h : SemiPD A) (b : Vec ℝ n) :
    ∃ x, eigenLdlt 0 n A b = some x ∧ (∀ i, A i i = 0 → x i = 0) ∧ ∀ i, A i i ≠ 0 → mv A x i = b i := by
  have hgo : ∃ cols s, ldltGo A n [] (List.finRange n) false .zero = some (cols, s) ∧ (s = .pos ∨ s = .zero) := by
    by_cases hne : ∃ i, A i i ≠ 0
    · obtain ⟨i, hi⟩ := hne
      refine ldltGo_pad h.1.1 (Z := {i | A i i = 0}) (fun z hz => h.2.1 z hz) (fun i hi => (psd_diag h.1 i).lt_of_ne' hi)
        n [] (List.finRange n) .zero List.length_finRange (List.nodup_finRange n) (Or.inr rfl) (fun _ _ c hc => by cases hc)
        (Or.inr ⟨i, List.mem_finRange _, hi⟩) fun v ⟨i, _, hi, hv⟩ => ?_
      rw [ldltRest_nil, List.toFinset_finRange, qf_univ]
      exact h.2.2 v ⟨i, hi, hv⟩
    · push Not at hne
      cases n with
      | zero => exact ⟨[], .zero, by simp [ldltGo], Or.inr rfl⟩
      | succ n =>
        rw [List.finRange_succ]
        unfold ldltGo
        simp only
        generalize ldltPick A 0 _ = p
        have h1 : lt (ofInt 0) (absF (ldltRest A [] p p)) = false := by rw [ldltRest_nil, hne p]; simp [absF_real]
        rw [h1, if_pos (by rfl), if_pos (List.all_eq_true.mpr fun j _ => List.all_eq_true.mpr fun i _ => by simp [h.2.1 i (hne i) j])]
        exact ⟨_, _, rfl, Or.inr rfl⟩
  obtain ⟨cols, s, hgo, hs⟩ := hgo
  have h1 : ∀ b, eigenLdlt 0 n A b = some (ldltSolve 0 cols b) := fun b => by
    unfold eigenLdlt
    rw [hgo]
    simp only [if_pos hs]
  obtain ⟨cs, e, hdec, -⟩ := ldltGo_dec h.1.1 n [] _ _ _ cols s List.length_finRange (List.nodup_finRange n) hgo
  rw [List.nil_append] at e
  subst e
  rw [ldltRest_nil, List.toFinset_finRange] at hdec
  refine ⟨_, h1 b, fun i hi => ldltSolve_zero (le_refl _) hdec (h.2.1 i hi), fun i hi => ?_⟩
  have hc := (C104_consistent h.1.1 (h1 fun i => if A i i = 0 then 0 else b i)).2 ⟨_, (h.consistent b).choose_spec.symm⟩
  rw [ldltSolve_congr (b' := fun i => if A i i = 0 then 0 else b i) (le_refl _) hdec fun z _ => ?_, hc]
  · exact if_neg hi
  by_cases hz : A z z = 0
  · exact Or.inr (h.2.1 z hz)
  · exact Or.inl (if_neg hz).symm

theorem eigen_padOk {inv : (n : Nat) → Mat ℝ n → Mat ℝ n} {A : Mat ℝ n} (hA : SymR A) (h : SemiPD A ∨ ¬ PSD A) : PadOk (eigenLinAlg 0 inv) ι A := by
  intro A' b b' hAA hb
  have hA' := hAA.sym hA
  show Option.Rel _ (eigenLdlt 0 n A b) (eigenLdlt 0 N A' b')
  rcases h with h | h
  · obtain ⟨x, hx, hx0, hx1⟩ := eigenLdlt_semi h b
    obtain ⟨x', hx', hx0', hx1'⟩ := eigenLdlt_semi (hAA.semi h) b'
    rw [hx, hx']
    refine .some ⟨congrFun (h.unique (fun i hi => hx0' _ (by rw [hAA.1]; exact hi)) hx0 fun i hi => ?_), fun j hj => hx0' j (hAA.2 j hj j).1⟩
    rw [hx1 i hi, ← (hAA.mv x').1 i, hx1' _ (by rw [hAA.1]; exact hi), hb.1]
  · have h1 : eigenLdlt 0 n A b = none := by
      by_contra hc
      obtain ⟨x, hx⟩ := Option.ne_none_iff_exists'.mp hc
      exact h (C104_psd hA hx)
    have h2 : eigenLdlt 0 N A' b' = none := by
      by_contra hc
      obtain ⟨x, hx⟩ := Option.ne_none_iff_exists'.mp hc
      exact h (hAA.psd (C104_psd hA' hx))
    rw [h1, h2]
    exact .none

/-- damped matrices are definite up to rows of zeros -/
theorem scaleDiag_semi {A : Mat ℝ n} (h : PSD A) {q : ℝ} (hq : 1 < q) : SemiPD (scaleDiag q A) := by
  have hz : ∀ i, A i i = 0 → ∀ j, A i j = 0 := fun i hi j => by
    have h1 : dotR (Pi.single i 1) (mv A (Pi.single i 1)) = 0 := by simpa [dotR, mv, Pi.single_apply] using hi
    have h2 := congrFun (psd_kernel h h1) j
    rw [h.1 i j]
    simpa [mv, Pi.single_apply] using h2
  have e : ∀ v, dotR v (mv (scaleDiag q A) v) = dotR v (mv A v) + (q - 1) * diagSq A v := by
    intro v
    have e1 : scaleDiag q A = dampedR (q - 1) A := by
      funext i j
      unfold scaleDiag dampedR
      by_cases hij : i = j
      · subst hij; simp; ring
      · simp [hij]
    rw [e1, damped_quad]
  have hd := fun i => psd_diag h i
  refine ⟨⟨fun i j => ?_, fun v => ?_⟩, fun i hi j => ?_, fun v ⟨i, hi, hv⟩ => ?_⟩
  · unfold scaleDiag
    by_cases hij : i = j
    · subst hij; rfl
    · rw [if_neg hij, if_neg (Ne.symm hij), h.1 i j]
  · rw [e]
    have := h.2 v
    have := diagSq_nonneg hd v
    nlinarith
  · have hi0 : A i i = 0 := by
      have : A i i * q = 0 := by simpa [scaleDiag] using hi
      exact (mul_eq_zero.mp this).resolve_right (by linarith)
    unfold scaleDiag
    split <;> simp [hz i hi0 j]
  · have hi0 : A i i ≠ 0 := fun h0 => hi (by simp [scaleDiag, h0])
    rw [e]
    have h1 := h.2 v
    have h2 : 0 < diagSq A v := Finset.sum_pos' (fun k _ => mul_nonneg (hd k) (sq_nonneg _)) ⟨i, Finset.mem_univ _, mul_pos ((hd i).lt_of_ne' hi0) (by positivity)⟩
    have h3 : 0 < (q - 1) * diagSq A v := mul_pos (by linarith) h2
    linarith

end

/-! ### Runs -/

section
variable {R W X X' U : Type} {n N : Nat}

/-- `P'` is the problem `P` with more parameters: the parameters of `P` are at the places `ι`, their values are `tx y`, those of the other parameters are `ux y`; the user function does not
look at the others, they have no effect on cost, gradient and Hessian. -/
structure Padded (ι : Fin n ↪ Fin N) (tx : X' → X) (ux : X' → U) (P : Problem ℝ R W X) (P' : Problem ℝ R W X') : Prop where
  pos : 0 < n
  dims : (P.dims = some n ∧ P'.dims = some N) ∨ (P.dims = none ∧ P'.dims = none)
  dyn : ∀ y, P.dynDims (tx y) = n
  dyn' : ∀ y, P'.dynDims y = N
  plus : ∀ y v v', PadV ι v v' → P.plusEq (tx y) ⟨n, v⟩ = tx (P'.plusEq y ⟨N, v'⟩) ∧ ux (P'.plusEq y ⟨N, v'⟩) = ux y
  clock : P.clock = P'.clock
  ratio1 : P.ratio1 = P'.ratio1
  alloc : ∀ w, (P.alloc w n).1.isSome = (P'.alloc w N).1.isSome ∧ (P.alloc w n).2 = (P'.alloc w N).2
  full : ∀ w y, ∃ c g g' H H' w1, P.acc.full w (tx y) n (fun _ => 0) (fun _ _ => 0) = ((c, g, H), w1) ∧
    P'.acc.full w y N (fun _ => 0) (fun _ _ => 0) = ((c, g', H'), w1) ∧ PadV ι g g' ∧ PadM ι (symUpper H) (symUpper H')
  eval : ∀ w y, P.acc.eval w (tx y) = P'.acc.eval w y

/-- the upper triangle of the Hessian that the user function fills in -/
def fullH (P : Problem ℝ R W X) (n : Nat) (w : W) (x : X) : Mat ℝ n := symUpper (P.acc.full w x n (fun _ => 0) (fun _ _ => 0)).1.2.2

/-- steps and gradients, with zeros for the added parameters -/
def StepPad (ι : Fin n ↪ Fin N) (d d' : DVec ℝ) : Prop := ∃ v v', d = ⟨n, v⟩ ∧ d' = ⟨N, v'⟩ ∧ PadV ι v v'

/-- the relations between the quantities of the two runs; the added parameters have the values `u` -/
def padRels (ι : Fin n ↪ Fin N) (tx : X' → X) (ux : X' → U) (u : U) : Rels ℝ R X X' (DVec ℝ) (DVec ℝ) where
  cost := Eq
  final := Eq
  rel := Eq
  x := fun x y => x = tx y ∧ ux y = u
  dx := StepPad ι
  dn := Eq
  gn := Eq
  grad := StepPad ι

/-- the same options, with a callback on steps and gradients that takes the added entries into account -/
structure PadOpts (ι : Fin n ↪ Fin N) (o o' : Options ℝ W (DVec ℝ)) : Prop where
  same : o' = { o with stopCallback2 := o'.stopCallback2 }
  cb2 : Option.Rel (fun cb cb' => ∀ w e d d' g g', StepPad ι d d' → StepPad ι g g' → cb w e d g = cb' w e d' g') o.stopCallback2 o'.stopCallback2

variable {ι : Fin n ↪ Fin N} {tx : X' → X} {ux : X' → U} {u : U} {P : Problem ℝ R W X} {P' : Problem ℝ R W X'} {so : SolverOpts ℝ} {L : LinAlg ℝ}

theorem optSim_pad {o o' : Options ℝ W (DVec ℝ)} (h : PadOpts ι o o') : OptSim o o' (padRels (R := R) ι tx ux u) := by
  obtain ⟨a1, a2, a3, a4, a5, a6, a7, a8, a9, a10, a11, a12, a13⟩ := o
  obtain ⟨b1, b2, b3, b4, b5, b6, b7, b8, b9, b10, b11, b12, b13⟩ := o'
  obtain ⟨h1, h2⟩ := h
  simp only [Options.mk.injEq] at h1 h2
  obtain ⟨rfl, rfl, rfl, rfl, rfl, rfl, rfl, rfl, rfl, rfl, rfl, rfl, -⟩ := h1
  have h3 : a13.isSome = b13.isSome := by cases h2 <;> rfl
  refine ⟨rfl, rfl, rfl, rfl, rfl, rfl, ?_, rfl, ?_, ?_, ?_, ?_, ?_, rfl, ?_, ?_, ?_, ?_⟩
  · simp only [hasGradNorm2, h3]
  · rintro c c' rfl; rfl
  · rintro c c' rfl; rfl
  · rintro c c' rfl; rfl
  · rintro c c' rfl; rfl
  · intro r; rfl
  · rintro c c' f f' rfl rfl; rfl
  · rintro c c' f f' rfl rfl; rfl
  · rintro a b rfl _; rfl
  · rintro w c c' f f' dn dn' gn gn' dx dx' g g' rfl rfl rfl rfl hdx hg
    unfold criteria callStop2
    cases h2 with
    | none => rfl
    | some hab =>
      simp only [hab _ _ _ _ _ _ hdx hg]
      rfl

theorem PadV.sqNorm {b : Vec ℝ n} {b' : Vec ℝ N} (h : PadV ι b b') : sqNorm b' = sqNorm b := by
  rw [sqNorm_eq, sqNorm_eq, h.dotR h]

theorem PadV.neg {b : Vec ℝ n} {b' : Vec ℝ N} (h : PadV ι b b') : PadV ι (negVec b) (negVec b') :=
  ⟨fun i => by simp only [negVec, h.1 i], fun j hj => by simp [negVec, h.2 j hj]⟩

theorem PadV.clamp {b : Vec ℝ n} {b' : Vec ℝ N} (h : PadV ι b b') {m : ℝ} (hm : 0 ≤ m) : PadV ι (clampVec m b) (clampVec m b') := by
  unfold clampVec
  split
  · exact h
  · refine ⟨fun i => by simp only [h.1 i], fun j hj => ?_⟩
    simp only [h.2 j hj]
    simp [clampCoef, hm, not_lt.mpr hm]

theorem PadM.scaleDiag {A : Mat ℝ n} {A' : Mat ℝ N} (h : PadM ι A A') (q : ℝ) : PadM ι (scaleDiag q A) (scaleDiag q A') := by
  unfold Verif.scaleDiag
  refine ⟨fun i j => ?_, fun j hj i => ?_⟩
  · by_cases e : i = j
    · subst e; simp only [if_true, h.1]
    · have e' : ¬ ι i = ι j := fun h => e (ι.injective h)
      simp only [if_neg e, if_neg e', h.1]
  · constructor <;> (simp only; split <;> simp [(h.2 j hj i).1, (h.2 j hj i).2])

/-- related systems -/
def SysPad (ι : Fin n ↪ Fin N) (ok : Mat ℝ n → Prop) (s s' : GNState ℝ R) : Prop :=
  ∃ c g g' H H', s = ⟨n, g, H, c⟩ ∧ s' = ⟨N, g', H', c⟩ ∧ PadV ι g g' ∧ PadM ι (symUpper H) (symUpper H') ∧ ok (symUpper H)

theorem buildSystem_pad (h : Padded ι tx ux P P') (hl : so.useLdlt = true) (hm : so.checkMinHDiag ≤ 0) (hg : 0 ≤ so.gradClip) {ok : Mat ℝ n → Prop} (hok : ∀ w y, ok (fullH P n w (tx y)))
    (w : W) (s s' : GNState ℝ R) (y : X') (hn : s.n = n) (hn' : s'.n = N) :
    ∃ b t t' w', buildSystem so P w s (tx y) = (b, t, w') ∧ buildSystem so P' w s' y = (b, t', w') ∧ SysPad ι ok t t' := by
  obtain ⟨kk, g, H, c⟩ := s
  obtain ⟨kk', g', H', c'⟩ := s'
  simp only at hn hn'
  subst hn; subst hn'
  obtain ⟨c, g, g', H, H', w1, e, e', hgg, hH⟩ := h.full w y
  have hok := hok w y
  unfold fullH at hok
  rw [e] at hok
  have z : ∀ k, (fun _ => ofInt 0 : Vec ℝ k) = fun _ => 0 := fun k => by funext i; simp
  have z2 : ∀ k, (fun _ _ => ofInt 0 : Mat ℝ k) = fun _ _ => 0 := fun k => by funext i j; simp
  have hlt : lt (ofInt 0) so.checkMinHDiag = false := by simpa using hm
  unfold buildSystem gnAccumulate
  simp only [z, z2, e, e', hlt, hl, Bool.false_and, Bool.not_true, Bool.and_false, Bool.false_eq_true, if_false]
  split
  · exact ⟨_, _, _, _, rfl, rfl, _, _, _, _, _, rfl, rfl, hgg.clamp hg, hH, hok⟩
  · exact ⟨_, _, _, _, rfl, rfl, _, _, _, _, _, rfl, rfl, hgg, hH, hok⟩

theorem gnSolve_pad (hl : so.useLdlt = true) (one one' : Bool) {ok : Mat ℝ n → Prop} (hok : ∀ A, ok A → PadOk L ι A) (s s' : GNState ℝ R) (h : SysPad ι ok s s') :
    Option.Rel (StepPad ι) (gnSolve so L one s) (gnSolve so L one' s') := by
  obtain ⟨c, g, g', H, H', rfl, rfl, hg, hH, hk⟩ := h
  unfold gnSolve solveLDLT
  simp only [hl, if_true]
  split
  · have := hok _ hk _ _ _ hH hg.neg
    revert this
    generalize L.ldlt n (symUpper H) (negVec g) = a
    generalize L.ldlt N (symUpper H') (negVec g') = a'
    intro this
    cases this with
    | none => exact .none
    | some hab => exact .some ⟨_, _, rfl, rfl, hab⟩
  · exact .none

theorem gnResize_pad (h : Padded ι tx ux P P') (w : W) (s s' : GNState ℝ R) (hn : s.n = n ↔ s'.n = N) (hd : P.dims ≠ none → s.n = n) :
    (∃ t t' w', gnResize P w s n = (.done t, w') ∧ gnResize P' w s' N = (.done t', w') ∧ t.n = n ∧ t'.n = N ∧ (s.n = n → t = s ∧ t' = s')) ∨
    (∃ w', gnResize P w s n = (.badAlloc, w') ∧ gnResize P' w s' N = (.badAlloc, w')) := by
  unfold gnResize
  rcases h.dims with ⟨e1, e2⟩ | ⟨e1, e2⟩
  · rw [e1, e2]
    have h1 := hd (by rw [e1]; simp)
    simp only [if_true]
    exact Or.inl ⟨_, _, _, rfl, rfl, h1, hn.mp h1, fun _ => ⟨rfl, rfl⟩⟩
  · rw [e1, e2]
    have h0 : ∀ k : Nat, ¬ ((k : Int) < 0) := fun k => by omega
    simp only [h0, if_false]
    by_cases e : s.n = n
    · have e' := hn.mp e
      rw [if_pos (by exact_mod_cast e), if_pos (by exact_mod_cast e')]
      exact Or.inl ⟨_, _, _, rfl, rfl, e, e', fun _ => ⟨rfl, rfl⟩⟩
    · rw [if_neg (by exact_mod_cast e), if_neg (fun h => e (hn.mpr (by exact_mod_cast h)))]
      obtain ⟨a1, a2⟩ := h.alloc w
      simp only [Int.toNat_natCast] at *
      cases ha : P.alloc w n with
      | mk o1 w1 =>
        cases ha' : P'.alloc w N with
        | mk o2 w2 =>
          rw [ha, ha'] at a1 a2
          simp only at a1 a2
          subst a2
          cases o1 with
          | none =>
            cases o2 with
            | none => exact Or.inr ⟨_, rfl, rfl⟩
            | some => cases a1
          | some p =>
            cases o2 with
            | none => cases a1
            | some p' => exact Or.inl ⟨_, _, _, rfl, rfl, rfl, rfl, fun hh => absurd hh e⟩

theorem Padded.pos' (h : Padded ι tx ux P P') : 0 < N := Fin.pos (ι ⟨0, h.pos⟩)

theorem Padded.dimsDynamic (h : Padded ι tx ux P P') : P.dims.isNone = P'.dims.isNone := by
  rcases h.dims with ⟨e1, e2⟩ | ⟨e1, e2⟩ <;> rw [e1, e2] <;> rfl

theorem Padded.dynDims (h : Padded ι tx ux P P') (y : X') : (P.dynDims (tx y) = 0 ↔ P'.dynDims y = 0) ∧ (P.dynDims (tx y) < 0 ↔ P'.dynDims y < 0) := by
  rw [h.dyn, h.dyn']
  have := h.pos
  have := h.pos'
  omega

/-- the states of the solvers between iterations -/
def SizePad (n N : Nat) (P : Problem ℝ R W X) (s s' : GNState ℝ R) : Prop := (s.n = n ↔ s'.n = N) ∧ (P.dims ≠ none → s.n = n)

theorem gn_padsim (h : Padded ι tx ux P P') (hl : so.useLdlt = true) (hm : so.checkMinHDiag ≤ 0) (hg : 0 ≤ so.gradClip) (hok : ∀ w y, PadOk L ι (fullH P n w (tx y))) :
    RunSim (gnEnv so L P) (gnEnv so L P') (padRels ι tx ux u) (SizePad n N P) (fun s s' => s.n = n ∧ s'.n = N)
      (SysPad ι (PadOk L ι)) (SysPad ι (PadOk L ι)) (SysPad ι (PadOk L ι)) where
  dimsDynamic := h.dimsDynamic
  dynDims := by rintro x y ⟨rfl, -⟩; exact h.dynDims y
  plusEq := by rintro x y d d' ⟨rfl, hu⟩ ⟨v, v', rfl, rfl, hv⟩; exact ⟨(h.plus y v v' hv).1, (h.plus y v v' hv).2.trans hu⟩
  negV := by rintro d d' ⟨v, v', rfl, rfl, hv⟩; exact ⟨negVec v, negVec v', rfl, rfl, hv.neg⟩
  norm := by rintro d d' ⟨v, v', rfl, rfl, hv⟩; exact hv.sqNorm.symm
  normSq := fun _ _ _ => rfl
  clock := h.clock
  ratio1 := h.ratio1
  resize := by
    rintro w s s' x y ⟨rfl, -⟩ ⟨hn, hd⟩
    have e : (gnEnv so L P).dynDims (tx y) = n := h.dyn y
    have e' : (gnEnv so L P').dynDims y = N := h.dyn' y
    rw [e, e']
    rcases gnResize_pad h w s s' hn hd with ⟨t, t', w', e1, e2, h1, h2, -⟩ | ⟨w', e1, e2⟩
    · exact Or.inl ⟨t, t', w', e1, e2, h1, h2⟩
    · exact Or.inr (Or.inl ⟨w', e1, e2⟩)
  build := by
    rintro w s s' x y ⟨rfl, -⟩ ⟨hn, hn'⟩
    obtain ⟨b, t, t', w', e1, e2, hs⟩ := buildSystem_pad h hl hm hg hok w s s' y hn hn'
    refine ⟨b, t, t', w', e1, e2, ?_, ?_⟩
    · obtain ⟨c, g, g', H, H', rfl, rfl, -⟩ := hs; rfl
    · rw [ite_self]; exact hs
  gradSq := by rintro s s' ⟨c, g, g', H, H', rfl, rfl, hg, -⟩; exact hg.sqNorm.symm
  gradient := by rintro s s' ⟨c, g, g', H, H', rfl, rfl, hg, -⟩; exact ⟨_, _, rfl, rfl, hg⟩
  gradientB := by rintro s s' ⟨c, g, g', H, H', rfl, rfl, hg, -⟩; exact ⟨_, _, rfl, rfl, hg⟩
  solve := fun s s' hs => gnSolve_pad hl _ _ (fun _ h => h) s s' hs
  good := fun s s' q hs => hs
  bad := fun s s' hs => hs
  failedB := by rintro s s' ⟨c, g, g', H, H', rfl, rfl, -⟩; exact ⟨rfl, rfl⟩
  failedF := by rintro s s' ⟨c, g, g', H, H', rfl, rfl, -⟩; exact ⟨rfl, rfl⟩
  rebuild := by rintro s s' b ⟨c, g, g', H, H', rfl, rfl, -⟩; exact ⟨⟨fun _ => rfl, fun _ => rfl⟩, fun _ => rfl⟩
  rebuildT := by rintro s s' ⟨c, g, g', H, H', rfl, rfl, -⟩; exact ⟨⟨fun _ => rfl, fun _ => rfl⟩, fun _ => rfl⟩

/-- `SolverGD` computes no matrix -/
def SysPadG (ι : Fin n ↪ Fin N) (s s' : GNState ℝ R) : Prop := ∃ c g g' H H', s = ⟨n, g, H, c⟩ ∧ s' = ⟨N, g', H', c⟩ ∧ PadV ι g g'

theorem gd_padsim (h : Padded ι tx ux P P') (hg : 0 ≤ so.gradClip) :
    RunSim (gdEnv so P) (gdEnv so P') (padRels ι tx ux u) (SizePad n N P) (fun s s' => s.n = n ∧ s'.n = N) (SysPadG ι) (SysPadG ι) (SysPadG ι) where
  dimsDynamic := h.dimsDynamic
  dynDims := by rintro x y ⟨rfl, -⟩; exact h.dynDims y
  plusEq := by rintro x y d d' ⟨rfl, hu⟩ ⟨v, v', rfl, rfl, hv⟩; exact ⟨(h.plus y v v' hv).1, (h.plus y v v' hv).2.trans hu⟩
  negV := by rintro d d' ⟨v, v', rfl, rfl, hv⟩; exact ⟨negVec v, negVec v', rfl, rfl, hv.neg⟩
  norm := by rintro d d' ⟨v, v', rfl, rfl, hv⟩; exact hv.sqNorm.symm
  normSq := fun _ _ _ => rfl
  clock := h.clock
  ratio1 := h.ratio1
  resize := by
    rintro w s s' x y ⟨rfl, -⟩ ⟨hn, hd⟩
    have e : (gdEnv so P).dynDims (tx y) = n := h.dyn y
    have e' : (gdEnv so P').dynDims y = N := h.dyn' y
    rw [e, e']
    rcases gnResize_pad h w s s' hn hd with ⟨t, t', w', e1, e2, h1, h2, -⟩ | ⟨w', e1, e2⟩
    · exact Or.inl ⟨t, t', w', e1, e2, h1, h2⟩
    · exact Or.inr (Or.inl ⟨w', e1, e2⟩)
  build := by
    rintro w ⟨kk, g, H, c⟩ ⟨kk', g', H', c'⟩ x y ⟨rfl, -⟩ ⟨hn, hn'⟩
    simp only at hn hn'
    subst hn; subst hn'
    obtain ⟨c, g, g', H, H', w1, e, e', hgg, hH⟩ := h.full w y
    have z : ∀ k, (fun _ => ofInt 0 : Vec ℝ k) = fun _ => 0 := fun k => by funext i; simp
    have z2 : ∀ k, (fun _ _ => ofInt 0 : Mat ℝ k) = fun _ _ => 0 := fun k => by funext i j; simp
    simp only [gdEnv, envOf, gdSolver]
    unfold gdBuild gnAccumulate
    simp only [z, z2, e, e']
    refine ⟨_, _, _, _, rfl, rfl, rfl, ?_⟩
    rw [ite_self]
    exact ⟨_, _, _, _, _, rfl, rfl, hgg.clamp hg⟩
  gradSq := by rintro s s' ⟨c, g, g', H, H', rfl, rfl, hg⟩; exact hg.sqNorm.symm
  gradient := by rintro s s' ⟨c, g, g', H, H', rfl, rfl, hg⟩; exact ⟨_, _, rfl, rfl, hg⟩
  gradientB := by rintro s s' ⟨c, g, g', H, H', rfl, rfl, hg⟩; exact ⟨_, _, rfl, rfl, hg⟩
  solve := by
    rintro s s' ⟨c, g, g', H, H', rfl, rfl, hg⟩
    simp only [gdEnv, envOf, gdSolver]
    unfold gdSolve
    simp only
    split
    · exact .some ⟨_, _, rfl, rfl, fun i => by simp only [hg.1 i], fun j hj => by simp [hg.2 j hj]⟩
    · exact .none
  good := fun s s' q hs => hs
  bad := fun s s' hs => hs
  failedB := by rintro s s' ⟨c, g, g', H, H', rfl, rfl, -⟩; exact ⟨rfl, rfl⟩
  failedF := by rintro s s' ⟨c, g, g', H, H', rfl, rfl, -⟩; exact ⟨rfl, rfl⟩
  rebuild := by rintro s s' b ⟨c, g, g', H, H', rfl, rfl, -⟩; exact ⟨⟨fun _ => rfl, fun _ => rfl⟩, fun _ => rfl⟩
  rebuildT := by rintro s s' ⟨c, g, g', H, H', rfl, rfl, -⟩; exact ⟨⟨fun _ => rfl, fun _ => rfl⟩, fun _ => rfl⟩

/-- the parts of the states of two `SolverLM` that agree -/
structure LmPadS (l0 : ℝ) (s s' : LMState ℝ R) : Prop where
  lambda : s.lambda = s'.lambda
  prev : s.prev = s'.prev
  badF : s.badF = s'.badF
  rebuild : s.rebuild = s'.rebuild
  low : l0 ≤ s.lambda

/-- the matrix is one with the diagonal damped by at least `p` -/
def DampedBy (L : LinAlg ℝ) (ι : Fin n ↪ Fin N) (l0 p : ℝ) (A : Mat ℝ n) : Prop :=
  ∃ H0 q, A = scaleDiag q H0 ∧ 1 + p ≤ q ∧ ∀ r, 1 + l0 ≤ r → PadOk L ι (scaleDiag r H0)

theorem scaleDiag_id (H : Mat ℝ n) : scaleDiag 1 H = H := by
  funext i j
  unfold scaleDiag
  split
  · simp
  · rfl

variable {l0 : ℝ}

theorem lmDamp_pad (h0 : 0 ≤ l0) (s s' : LMState ℝ R) (h : LmPadS l0 s s')
    (hs : (s.rebuild = true ∧ SysPad ι (fun A => ∀ r, 1 + l0 ≤ r → PadOk L ι (scaleDiag r A)) s.gn s'.gn) ∨ (s.rebuild = false ∧ 0 ≤ s.prev ∧ SysPad ι (DampedBy L ι l0 s.prev) s.gn s'.gn)) :
    LmPadS l0 (lmDamp s) (lmDamp s') ∧ SysPad ι (DampedBy L ι l0 (lmDamp s).lambda) (lmDamp s).gn (lmDamp s').gn := by
  obtain ⟨gs, l, p, b, r⟩ := s
  obtain ⟨gs', l', p', b', r'⟩ := s'
  obtain ⟨e1, e2, e3, e4, hlow⟩ := h
  simp only at e1 e2 e3 e4 hlow hs
  subst e1; subst e2; subst e3; subst e4
  have hl0 : 0 ≤ l := h0.trans hlow
  rcases hs with ⟨rfl, c, g, g', H, H', rfl, rfl, hg, hH, hk⟩ | ⟨rfl, hp, c, g, g', H, H', rfl, rfl, hg, hH, H0, q, hq, hq1, hk⟩
  · unfold lmDamp
    by_cases hl : 0 < l
    · have hlt : lt (ofInt 0) l = true := by simpa using hl
      rw [if_pos hlt, if_pos hlt]
      simp only [if_true, RealOps.add_eq, RealOps.ofInt_eq, Int.cast_one]
      refine ⟨⟨rfl, rfl, rfl, rfl, hlow⟩, c, g, g', _, _, rfl, rfl, hg, ?_, symUpper H, 1 + l, symUpper_scaleDiag _ _, le_refl _, hk⟩
      rw [symUpper_scaleDiag, symUpper_scaleDiag]
      exact hH.scaleDiag _
    · have hlt : lt (ofInt 0) l = false := by simpa using hl
      simp only [hlt, Bool.false_eq_true, if_false]
      exact ⟨⟨rfl, rfl, rfl, rfl, hlow⟩, c, g, g', _, _, rfl, rfl, hg, hH, symUpper H, 1, (scaleDiag_id _).symm, by linarith, hk⟩
  · unfold lmDamp
    by_cases hl : 0 < l
    · have hlt : lt (ofInt 0) l = true := by simpa using hl
      rw [if_pos hlt, if_pos hlt]
      simp only [Bool.false_eq_true, if_false, RealOps.add_eq, RealOps.div_eq, RealOps.ofInt_eq, Int.cast_one]
      refine ⟨⟨rfl, rfl, rfl, rfl, hlow⟩, c, g, g', _, _, rfl, rfl, hg, ?_, H0, q * ((1 + l) / (1 + p)), by rw [symUpper_scaleDiag, hq, scaleDiag_mul], ?_, hk⟩
      · rw [symUpper_scaleDiag, symUpper_scaleDiag]
        exact hH.scaleDiag _
      · have hp1 : 0 < 1 + p := by linarith
        calc 1 + l = (1 + p) * ((1 + l) / (1 + p)) := by field_simp
          _ ≤ q * ((1 + l) / (1 + p)) := mul_le_mul_of_nonneg_right hq1 (by positivity)
    · have hlt : lt (ofInt 0) l = false := by simpa using hl
      simp only [hlt, Bool.false_eq_true, if_false]
      exact ⟨⟨rfl, rfl, rfl, rfl, hlow⟩, c, g, g', _, _, rfl, rfl, hg, hH, H0, q, hq, by linarith, hk⟩

theorem lmClamp_low {α β : Type} {r : α → β → Prop} (v : ℝ) (f : ℝ → α) (f' : ℝ → β) (hlo : l0 ≤ so.dampLo) (h : ∀ l, l0 ≤ l → r (f l) (f' l)) :
    Res.Rel r ((stdClamp v so.dampLo so.dampHi).map f) ((stdClamp v so.dampLo so.dampHi).map f') := by
  unfold stdClamp
  split
  · trivial
  next hr =>
    refine h _ ?_
    simp only [RealOps.lt_eq] at hr ⊢
    split
    · exact hlo
    · split
      · linarith [not_lt.mp hr]
      next h1 _ => linarith [not_lt.mp h1]

theorem lm_padsim (h : Padded ι tx ux P P') (hl : so.useLdlt = true) (hm : so.checkMinHDiag ≤ 0) (hg : 0 ≤ so.gradClip) (h0 : 0 ≤ l0) (hlo : l0 ≤ so.dampLo)
    (hok : ∀ w y r, 1 + l0 ≤ r → PadOk L ι (scaleDiag r (fullH P n w (tx y)))) (hval : ∀ w y, (normalizeCost so (P'.acc.eval w y).1).isValid = true) :
    RunSim (lmEnv so L P) (lmEnv so L P') (padRels ι tx ux u)
      (fun s s' => LmPadS l0 s s' ∧ SizePad n N P s.gn s'.gn ∧ (s.rebuild = true ∨ (s.rebuild = false ∧ 0 ≤ s.prev ∧ SysPad ι (DampedBy L ι l0 s.prev) s.gn s'.gn)))
      (fun s s' => LmPadS l0 s s' ∧ (s.gn.n = n ∧ s'.gn.n = N) ∧ (s.rebuild = true ∨ (s.rebuild = false ∧ 0 ≤ s.prev ∧ SysPad ι (DampedBy L ι l0 s.prev) s.gn s'.gn)))
      (fun s s' => LmPadS l0 s s' ∧ SysPad ι (DampedBy L ι l0 s.lambda) s.gn s'.gn)
      (fun s s' => LmPadS l0 s s' ∧ (s.gn.n = n ∧ s'.gn.n = N) ∧ s.rebuild = true)
      (fun s s' => LmPadS l0 s s' ∧ 0 ≤ s.prev ∧ SysPad ι (DampedBy L ι l0 s.prev) s.gn s'.gn) where
  dimsDynamic := h.dimsDynamic
  dynDims := by rintro x y ⟨rfl, -⟩; exact h.dynDims y
  plusEq := by rintro x y d d' ⟨rfl, hu⟩ ⟨v, v', rfl, rfl, hv⟩; exact ⟨(h.plus y v v' hv).1, (h.plus y v v' hv).2.trans hu⟩
  negV := by rintro d d' ⟨v, v', rfl, rfl, hv⟩; exact ⟨negVec v, negVec v', rfl, rfl, hv.neg⟩
  norm := by rintro d d' ⟨v, v', rfl, rfl, hv⟩; exact hv.sqNorm.symm
  normSq := fun _ _ _ => rfl
  clock := h.clock
  ratio1 := h.ratio1
  resize := by
    rintro w s s' x y ⟨rfl, -⟩ ⟨hs, ⟨hn, hd⟩, hsys⟩
    have e : (lmEnv so L P).dynDims (tx y) = n := h.dyn y
    have e' : (lmEnv so L P').dynDims y = N := h.dyn' y
    rw [e, e']
    simp only [lmEnv, envOf, lmSolver]
    rcases gnResize_pad h w s.gn s'.gn hn hd with ⟨g, g', w', e1, e2, h1, h2, h3⟩ | ⟨w', e1, e2⟩
    · refine Or.inl ⟨{ s with gn := g }, { s' with gn := g' }, w', by rw [e1], by rw [e2], ⟨hs.lambda, hs.prev, hs.badF, hs.rebuild, hs.low⟩, ⟨h1, h2⟩, ?_⟩
      rcases hsys with h5 | ⟨h5, h6, h7⟩
      · exact Or.inl h5
      · have h8 : s.gn.n = n := by obtain ⟨c, gg, gg', H, H', h8, -⟩ := h7; rw [h8]
        obtain ⟨rfl, rfl⟩ := h3 h8
        exact Or.inr ⟨h5, h6, h7⟩
    · exact Or.inr (Or.inl ⟨w', by rw [e1], by rw [e2]⟩)
  build := by
    rintro w ⟨gs, l, p, bf, r⟩ ⟨gs', l', p', bf', r'⟩ x y ⟨rfl, -⟩ ⟨⟨h1, h2, h3, h4, hlow⟩, ⟨hn, hn'⟩, h5⟩
    simp only at h1 h2 h3 h4 h5 hn hn' hlow
    subst h1; subst h2; subst h3; subst h4
    simp only [lmEnv, envOf, lmSolver]
    unfold lmBuild
    cases r with
    | true =>
      obtain ⟨b, g, g', w', e1, e2, hs⟩ := buildSystem_pad h hl hm hg (ok := fun A => ∀ r, 1 + l0 ≤ r → PadOk L ι (scaleDiag r A)) hok w gs gs' y hn hn'
      simp only [e1, e2, if_true]
      have hl1 : LmPadS l0 (⟨g, l, p, bf, true⟩ : LMState ℝ R) ⟨g', l, p, bf, true⟩ := ⟨rfl, rfl, rfl, rfl, hlow⟩
      cases b
      · refine ⟨false, _, _, w', rfl, rfl, ?_, hl1, ?_, rfl⟩ <;> (obtain ⟨c, gg, gg', H, H', rfl, rfl, -⟩ := hs)
        · rfl
        · exact ⟨rfl, rfl⟩
      · have hd := lmDamp_pad h0 _ _ hl1 (Or.inl ⟨rfl, hs⟩)
        refine ⟨true, _, _, w', rfl, rfl, ?_, hd⟩
        obtain ⟨-, c, gg, gg', H, H', k1, k2, -⟩ := hd
        show (lmDamp _).gn.cost = (lmDamp _).gn.cost
        rw [k1, k2]
    | false =>
      obtain ⟨-, hp, c0, g, g', H, H', rfl, rfl, hgg, hH, hk⟩ := h5.resolve_left (by simp)
      unfold lmEvaluate
      have hv := hval w y
      rw [h.eval]
      rw [← Prod.mk.eta (p := P'.acc.eval w y)]
      simp only [Bool.false_eq_true, if_false, hv, if_true]
      have hd := lmDamp_pad (L := L) (ι := ι) h0 ⟨⟨n, g, H, normalizeCost so (P'.acc.eval w y).1⟩, l, p, bf, false⟩ ⟨⟨N, g', H', normalizeCost so (P'.acc.eval w y).1⟩, l, p, bf, false⟩
        ⟨rfl, rfl, rfl, rfl, hlow⟩ (Or.inr ⟨rfl, hp, _, _, _, _, _, rfl, rfl, hgg, hH, hk⟩)
      refine ⟨true, _, _, _, rfl, rfl, ?_, hd⟩
      obtain ⟨-, c, gg, gg', H, H', k1, k2, -⟩ := hd
      show (lmDamp _).gn.cost = (lmDamp _).gn.cost
      rw [k1, k2]
  gradSq := by
    rintro ⟨gs, l, p, bf, r⟩ ⟨gs', l', p', bf', r'⟩ ⟨-, c, g, g', H, H', e1, e2, hg, -⟩
    simp only at e1 e2; subst e1; subst e2; exact hg.sqNorm.symm
  gradient := by
    rintro ⟨gs, l, p, bf, r⟩ ⟨gs', l', p', bf', r'⟩ ⟨-, -, c, g, g', H, H', e1, e2, hg, -⟩
    simp only at e1 e2; subst e1; subst e2; exact ⟨_, _, rfl, rfl, hg⟩
  gradientB := by
    rintro ⟨gs, l, p, bf, r⟩ ⟨gs', l', p', bf', r'⟩ ⟨-, c, g, g', H, H', e1, e2, hg, -⟩
    simp only at e1 e2; subst e1; subst e2; exact ⟨_, _, rfl, rfl, hg⟩
  solve := by
    rintro s s' ⟨hs, hsys⟩
    refine gnSolve_pad hl _ _ ?_ s.gn s'.gn hsys
    rintro A ⟨H0, q, rfl, hq, hk⟩
    exact hk q (by linarith [hs.low])
  good := by
    rintro s s' q ⟨hs, hsys⟩
    simp only [lmEnv, envOf, lmSolver, lmGood]
    rw [← hs.lambda, ← hs.badF]
    exact lmClamp_low _ _ _ hlo fun l hl => ⟨⟨rfl, rfl, rfl, hs.rebuild, hl⟩, h0.trans hs.low, hsys⟩
  bad := by
    rintro s s' ⟨hs, hsys⟩
    simp only [lmEnv, envOf, lmSolver, lmBad]
    rw [← hs.lambda, ← hs.badF]
    exact lmClamp_low _ _ _ hlo fun l hl => ⟨⟨rfl, rfl, rfl, hs.rebuild, hl⟩, h0.trans hs.low, hsys⟩
  failedB := by
    rintro s s' ⟨hs, hsys⟩
    simp only [lmEnv, envOf, lmSolver, lmBad]
    rw [← hs.lambda, ← hs.badF]
    refine lmClamp_low _ _ _ hlo fun l hl => ⟨⟨rfl, rfl, rfl, hs.rebuild, hl⟩, ?_, ?_⟩
    · obtain ⟨c, g, g', H, H', e1, e2, -⟩ := hsys; simp [e1, e2]
    · cases hr : s.rebuild with
      | true => exact Or.inl rfl
      | false => exact Or.inr ⟨rfl, h0.trans hs.low, hsys⟩
  failedF := by
    rintro s s' ⟨hs, hn, hr⟩
    simp only [lmEnv, envOf, lmSolver, lmBad]
    rw [← hs.lambda, ← hs.badF]
    exact lmClamp_low _ _ _ hlo fun l hl => ⟨⟨rfl, rfl, rfl, hs.rebuild, hl⟩, hn, Or.inl hr⟩
  rebuild := by
    rintro s s' b ⟨hs, hp, hsys⟩
    refine ⟨⟨hs.lambda, hs.prev, hs.badF, rfl, hs.low⟩, ?_, ?_⟩
    · obtain ⟨c, g, g', H, H', e1, e2, -⟩ := hsys; simp [lmEnv, envOf, lmSolver, SizePad, e1, e2]
    · cases b with
      | true => exact Or.inl rfl
      | false => exact Or.inr ⟨rfl, hp, hsys⟩
  rebuildT := by
    rintro s s' ⟨hs, hsys⟩
    refine ⟨⟨hs.lambda, hs.prev, hs.badF, rfl, hs.low⟩, ?_, Or.inl rfl⟩
    obtain ⟨c, g, g', H, H', e1, e2, -⟩ := hsys; simp [lmEnv, envOf, lmSolver, SizePad, e1, e2]

end
end Verif
