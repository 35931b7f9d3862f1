import Verif.Num.RoundedBin
import Verif.Props.LdltFloat
/-!
# C113: the decomposition in IEEE arithmetic

The theorems of `Verif.Props.LdltFloat` for the operations of the IEEE formats, for systems on which no operation overflows or underflows.
-/

set_option linter.unusedSectionVars false

namespace Verif
open FloatOps

section
variable {p : ℕ} {hp : p ≠ 0} {emin : ℤ} {hem : emin ≤ -emin - 2 * p + 3} {eps : ℚ}

instance (q : ℚ) : Decidable (RelOk p emin q) := inferInstanceAs (Decidable (_ ≤ _))

/-- A number with a flag that is lost when an operation it comes from overflows or underflows (the result is not finite, or the rounding error is larger than half a unit in the last place
of a number with all its digits). -/
structure Tr (p : ℕ) (hp : p ≠ 0) (emin : ℤ) (hem : emin ≤ -emin - 2 * p + 3) (eps : ℚ) where
  val : Fl (Fmt.ieee p hp emin hem eps)
  ok : Bool

/-- the rounding of the exact result of `op` is fine -/
def opOk (op : ℚ → ℚ → ℚ) (a b : Fl (Fmt.ieee p hp emin hem eps)) : Bool :=
  match a, b with
  | .fin x _, .fin y _ => decide (RelOk p emin (op x y))
  | _, _ => false

/-- The operations of the format, with flags. The functions that the decomposition does not use lose it. -/
instance : FloatOps (Tr p hp emin hem eps) where
  add a b := ⟨add a.val b.val, a.ok && b.ok && finite (add a.val b.val)⟩
  sub a b := ⟨sub a.val b.val, a.ok && b.ok && finite (sub a.val b.val)⟩
  mul a b := ⟨mul a.val b.val, a.ok && b.ok && finite (mul a.val b.val) && opOk (· * ·) a.val b.val⟩
  div a b := ⟨div a.val b.val, a.ok && b.ok && finite (div a.val b.val) && opOk (· / ·) a.val b.val⟩
  neg a := ⟨neg a.val, a.ok⟩
  ofInt n := ⟨ofInt n, finite (ofInt n : Fl (Fmt.ieee p hp emin hem eps)) && decide (RelOk p emin n)⟩
  half := ⟨half, false⟩
  sqrt a := ⟨sqrt a.val, false⟩
  cube a := ⟨cube a.val, false⟩
  lt a b := lt a.val b.val
  eq a b := eq a.val b.val
  isNaN a := isNaN a.val
  isInf a := isInf a.val
  maxVal := ⟨maxVal, false⟩
  eps := ⟨FloatOps.eps, false⟩

/-- the flag of the number says that it is the same as `b` -/
def RelTr (a : Tr p hp emin hem eps) (b : Rd (binRnd p emin)) : Prop := a.ok = true → SameNum a.val b

variable {a b : Tr p hp emin hem eps} {a' b' : Rd (binRnd p emin)}

theorem RelTr.add (ha : RelTr a a') (hb : RelTr b b') : RelTr (add a b) (add a' b') := by
  intro h
  have h : (a.ok && b.ok && finite (FloatOps.add a.val b.val)) = true := h
  simp only [Bool.and_eq_true] at h
  exact add_same (ha h.1.1) (hb h.1.2) h.2

theorem RelTr.sub (ha : RelTr a a') (hb : RelTr b b') : RelTr (sub a b) (sub a' b') := by
  intro h
  have h : (a.ok && b.ok && finite (FloatOps.sub a.val b.val)) = true := h
  simp only [Bool.and_eq_true] at h
  exact sub_same (ha h.1.1) (hb h.1.2) h.2

theorem RelTr.mul (ha : RelTr a a') (hb : RelTr b b') : RelTr (mul a b) (mul a' b') := by
  intro h
  have h : (a.ok && b.ok && finite (FloatOps.mul a.val b.val) && opOk (· * ·) a.val b.val) = true := h
  simp only [Bool.and_eq_true] at h
  have h1 := ha h.1.1.1
  have h2 := hb h.1.1.2
  obtain ⟨x, hx, ex, -⟩ := h1
  obtain ⟨y, hy, ey, -⟩ := h2
  refine mul_same (ha h.1.1.1) (hb h.1.1.2) ex ey ?_ h.1.2
  have h3 := h.2
  rw [ex, ey] at h3
  exact of_decide_eq_true h3

theorem RelTr.div (ha : RelTr a a') (hb : RelTr b b') : RelTr (div a b) (div a' b') := by
  intro h
  have h : (a.ok && b.ok && finite (FloatOps.div a.val b.val) && opOk (· / ·) a.val b.val) = true := h
  simp only [Bool.and_eq_true] at h
  have h1 := ha h.1.1.1
  have h2 := hb h.1.1.2
  obtain ⟨x, hx, ex, -⟩ := h1
  obtain ⟨y, hy, ey, -⟩ := h2
  refine div_same (ha h.1.1.1) (hb h.1.1.2) ex ey ?_ h.1.2
  have h3 := h.2
  rw [ex, ey] at h3
  exact of_decide_eq_true h3

theorem RelTr.neg (ha : RelTr a a') : RelTr (neg a) (neg a') := fun h => neg_same (ha h)

theorem zero_same : SameNum (ofInt 0 : Fl (Fmt.ieee p hp emin hem eps)) (ofInt 0) := by
  refine ⟨0, _, Fl.ofInt_zero, ?_⟩
  rw [Rd.ofInt_zero_v]; simp

theorem RelTr.zero : RelTr (ofInt 0 : Tr p hp emin hem eps) (ofInt 0) := fun _ => zero_same

theorem absF_same {a : Fl (Fmt.ieee p hp emin hem eps)} (ha : SameNum a a') : SameNum (absF a) (absF a') := by
  unfold absF
  rw [lt_same ha zero_same]
  split
  · exact neg_same ha
  · exact ha

theorem absF_val (a : Tr p hp emin hem eps) : (absF a).val = absF a.val := by
  unfold absF
  show (if FloatOps.lt a.val (ofInt 0) then FloatOps.neg a else a).val = _
  split <;> rfl

/-! ### Columns -/

variable {n : Nat}

/-- the columns without flags -/
def valCol (c : LdltCol (Tr p hp emin hem eps) n) : LdltCol (Fl (Fmt.ieee p hp emin hem eps)) n := ⟨c.p, c.d.val, fun i => (c.l i).val⟩

/-- related columns -/
structure RelCol (c : LdltCol (Tr p hp emin hem eps) n) (c' : LdltCol (Rd (binRnd p emin)) n) : Prop where
  p : c.p = c'.p
  d : RelTr c.d c'.d
  l : ∀ i, RelTr (c.l i) (c'.l i)

/-- all inputs with their flags -/
def trM (A : Mat (Fl (Fmt.ieee p hp emin hem eps)) n) : Mat (Tr p hp emin hem eps) n := fun i j => ⟨A i j, true⟩

def trV (b : Vec (Fl (Fmt.ieee p hp emin hem eps)) n) : Vec (Tr p hp emin hem eps) n := fun i => ⟨b i, true⟩

theorem ldltDot_val (T : List (LdltCol (Tr p hp emin hem eps) n)) (i j : Fin n) : (ldltDot T i j).val = ldltDot (T.map valCol) i j := by
  unfold ldltDot
  rw [List.foldl_map]
  have : ∀ (T : List (LdltCol (Tr p hp emin hem eps) n)) (a : Tr p hp emin hem eps),
      (T.foldl (fun a c => add a (mul (c.l i) (mul c.d (c.l j)))) a).val = T.foldl (fun a c => add a (mul ((valCol c).l i) (mul (valCol c).d ((valCol c).l j)))) a.val := by
    intro T
    induction T with
    | nil => intro a; rfl
    | cons c T ih => intro a; rw [List.foldl_cons, List.foldl_cons, ih]; rfl
  exact this T _

theorem ldltDot_rel {T : List (LdltCol (Tr p hp emin hem eps) n)} {D : List (LdltCol (Rd (binRnd p emin)) n)} (h : List.Forall₂ RelCol T D) (i j : Fin n) :
    RelTr (ldltDot T i j) (ldltDot D i j) := by
  unfold ldltDot
  have : ∀ (a : Tr p hp emin hem eps) (a' : Rd (binRnd p emin)), RelTr a a' →
      RelTr (T.foldl (fun a c => add a (mul (c.l i) (mul c.d (c.l j)))) a) (D.foldl (fun a c => add a (mul (c.l i) (mul c.d (c.l j)))) a') := by
    induction h with
    | nil => intro a a' h; exact h
    | cons hc _ ih => intro a a' h; exact ih _ _ (h.add ((hc.l i).mul (hc.d.mul (hc.l j))))
  exact this _ _ RelTr.zero

variable {A : Mat (Fl (Fmt.ieee p hp emin hem eps)) n} {A' : Mat (Rd (binRnd p emin)) n}

theorem ldltRest_val (T : List (LdltCol (Tr p hp emin hem eps) n)) (i j : Fin n) : (ldltRest (trM A) T i j).val = ldltRest A (T.map valCol) i j := by
  unfold ldltRest
  rw [← ldltDot_val]; rfl

theorem ldltRest_rel (hA : ∀ i j, SameNum (A i j) (A' i j)) {T : List (LdltCol (Tr p hp emin hem eps) n)} {D : List (LdltCol (Rd (binRnd p emin)) n)} (h : List.Forall₂ RelCol T D) (i j : Fin n) :
    RelTr (ldltRest (trM A) T i j) (ldltRest A' D i j) :=
  RelTr.sub (fun _ => hA i j) (ldltDot_rel h i j)

theorem ldltPick_same (hA : ∀ i j, SameNum (A i j) (A' i j)) (a : Fin n) (t : List (Fin n)) : ldltPick A a t = ldltPick A' a t := by
  unfold ldltPick
  induction t generalizing a with
  | nil => rfl
  | cons i t ih =>
    rw [List.foldl_cons, List.foldl_cons, lt_same (absF_same (hA a a)) (absF_same (hA i i))]
    exact ih _

/-- the elimination without the checks of `ldltGo` -/
def ldltForce {F : Type} [FloatOps F] (A : Mat F n) : Nat → List (LdltCol F n) → List (Fin n) → List (LdltCol F n)
  | k + 1, done, a :: t =>
    let q := ldltPick A a t
    let d := ldltRest A done q q
    ldltForce A k (done ++ [⟨q, d, fun i => div (ldltRest A done i q) d⟩]) (ldltSwap a q t)
  | _, done, _ => done

theorem ldltForce_prefix {F : Type} [FloatOps F] {A : Mat F n} : ∀ (k : Nat) (done : List (LdltCol F n)) (rem : List (Fin n)) (c), c ∈ done → c ∈ ldltForce A k done rem
  | k + 1, done, a :: t, c, h => by
    rw [ldltForce]
    exact ldltForce_prefix k _ _ c (List.mem_append_left _ h)
  | 0, done, _, c, h => by rw [ldltForce]; exact h; simp
  | k + 1, done, [], c, h => by rw [ldltForce]; exact h; simp

theorem ldltPick_val (a : Fin n) (t : List (Fin n)) : ldltPick (trM A) a t = ldltPick A a t := by
  unfold ldltPick
  induction t generalizing a with
  | nil => rfl
  | cons i t ih =>
    rw [List.foldl_cons, List.foldl_cons]
    have : FloatOps.lt (absF (trM A a a)) (absF (trM A i i)) = FloatOps.lt (absF (A a a)) (absF (A i i)) := by
      show FloatOps.lt (absF (trM A a a)).val (absF (trM A i i)).val = _
      rw [absF_val, absF_val]; rfl
    rw [this]
    exact ih _

/-- the loops run alike -/
theorem ldltGo_ieee {u : ℝ} (hue : u = (2 : ℝ) ^ (-(p : ℤ))) (hu2 : u ≤ 1 / 2) {μ : ℝ} (hsame : ∀ i j, SameNum (A i j) (A' i j)) (hA : Coercive μ (matV A')) (hμ : 2 * (n + 1) * facErr u n ≤ μ)
    (hμ0 : 0 < μ) (hμ1 : μ ≤ 1) :
    ∀ (k : Nat) (T : List (LdltCol (Tr p hp emin hem eps) n)) (D : List (LdltCol (Rd (binRnd p emin)) n)) (rem : List (Fin n)) (s : LdltSign), rem.length = k → rem.Nodup → s = .pos ∨ s = .zero →
      (∀ i, i ∈ D.map (·.p) ↔ i ∉ rem) → D.length + k = n → LdInv μ A' D → List.Forall₂ RelCol T D → (∀ c ∈ ldltForce (trM A) k T rem, c.d.ok = true) →
      ∃ cols s', ldltGo A k (T.map valCol) rem false s = some ((ldltForce (trM A) k T rem).map valCol, s') ∧ (s' = .pos ∨ s' = .zero) ∧
        ldltGo A' k D rem false s = some (cols, s') ∧ LdInv μ A' cols ∧ List.Forall₂ RelCol (ldltForce (trM A) k T rem) cols
  | 0, T, D, [], s, _, _, hs, hin, hl, hinv, hrel, _ => ⟨D, s, by simp [ldltGo, ldltForce], hs, by simp [ldltGo], hinv, by simpa [ldltForce] using hrel⟩
  | k + 1, T, D, a :: t, s, hk, hn, hs, hin, hl, hinv, hrel, hok => by
    subst hue
    have hu : (0 : ℝ) ≤ (2 : ℝ) ^ (-(p : ℤ)) := by positivity
    have hq := ldltPick_in A' a t
    obtain ⟨w1, w2, w3⟩ := ldltSwap_spec hn hq
    have hlen : (ldltSwap a (ldltPick A' a t) t).length = k := by rw [w3]; simpa using hk
    rw [ldltForce] at hok ⊢
    simp only [ldltPick_val, ldltPick_same hsame] at hok ⊢
    unfold ldltGo
    simp only [ldltPick_same hsame]
    generalize ldltPick A' a t = q at *
    have hqd : q ∉ D.map (·.p) := by rw [hin]; exact fun h => h hq
    obtain ⟨-, hd⟩ := hinv.pivot hu hu2 hA hμ hμ0 hμ1 hqd (by omega)
    have hv : lt (ofInt 0) (absF (ldltRest A' D q q)) = true := by
      rw [Rd.lt_iff, Rd.ofInt_zero_v, absF_rd]; exact abs_pos.2 hd.ne'
    have hdok : (ldltRest (trM A) T q q).ok = true := hok _ (ldltForce_prefix _ _ _ _ (List.mem_append_right _ (List.mem_singleton.2 rfl)))
    have hds : SameNum (ldltRest A (T.map valCol) q q) (ldltRest A' D q q) := by
      rw [← ldltRest_val]; exact ldltRest_rel hsame hrel q q hdok
    have hv' : lt (ofInt 0) (absF (ldltRest A (T.map valCol) q q)) = true := by
      rw [lt_same zero_same (absF_same hds)]; exact hv
    simp only [hv, hv', Bool.not_true, Bool.false_and, Bool.false_eq_true, if_false, if_true]
    have h1 : lt (ofInt 0) (ldltRest A' D q q) = true := by rw [Rd.lt_iff, Rd.ofInt_zero_v]; exact hd
    have h2 : lt (ldltRest A' D q q) (ofInt 0) = false := by rw [Rd.lt_false, Rd.ofInt_zero_v]; exact hd.le
    have hsgn : ldltSign s (ldltRest A (T.map valCol) q q) = ldltSign s (ldltRest A' D q q) := by
      unfold ldltSign
      rw [lt_same hds zero_same, lt_same zero_same hds]
    rw [hsgn]
    have hcol : T.map valCol ++ [⟨q, ldltRest A (T.map valCol) q q, fun i => div (ldltRest A (T.map valCol) i q) (ldltRest A (T.map valCol) q q)⟩] =
        List.map valCol (T ++ [(⟨q, ldltRest (trM A) T q q, fun i => div (ldltRest (trM A) T i q) (ldltRest (trM A) T q q)⟩ : LdltCol (Tr p hp emin hem eps) n)]) := by
      rw [List.map_append]
      congr 1
      simp only [List.map_cons, List.map_nil, valCol, ← ldltRest_val]
      rfl
    rw [hcol]
    refine ldltGo_ieee rfl hu2 hsame hA hμ hμ0 hμ1 k _ _ _ _ hlen w1 ?_ (fun i => ?_) (by simp; omega) (hinv.step hu hu2 hA hμ hμ0 hμ1 hqd (by omega)) ?_ hok
    · rcases hs with rfl | rfl <;> simp [ldltSign, h1, h2]
    · have hm : i ∈ ldltSwap a q t ↔ i ≠ q ∧ i ∈ a :: t := by
        rw [← List.mem_toFinset, w2, Finset.mem_erase, List.mem_toFinset]
      rw [hm, List.map_append, List.mem_append, hin]
      simp only [List.map_cons, List.map_nil, List.mem_singleton]
      tauto
    · exact List.rel_append (R := RelCol) hrel (List.Forall₂.cons (RelCol.mk rfl (ldltRest_rel hsame hrel q q)
        fun i => (ldltRest_rel hsame hrel i q).div (ldltRest_rel hsame hrel q q)) List.Forall₂.nil)
  | 0, _, _, _ :: _, _, h, _, _, _, _, _, _, _ => by simp at h
  | _ + 1, _, _, [], _, h, _, _, _, _, _, _, _ => by simp at h

/-! ### Substitution -/

theorem sumCols_val (l : Vec (Tr p hp emin hem eps) n) (x : Vec (Tr p hp emin hem eps) n) (cs : List (LdltCol (Tr p hp emin hem eps) n)) (a : Tr p hp emin hem eps) :
    (cs.foldl (fun a c' => add a (mul (l c'.p) (x c'.p))) a).val = (cs.map valCol).foldl (fun a c' => add a (mul (l c'.p).val (x c'.p).val)) a.val := by
  induction cs generalizing a with
  | nil => rfl
  | cons c cs ih => rw [List.foldl_cons, List.map_cons, List.foldl_cons, ih]; rfl

theorem ldltSolve_val (tol : Fl (Fmt.ieee p hp emin hem eps)) : ∀ (cs : List (LdltCol (Tr p hp emin hem eps) n)) (b : Vec (Tr p hp emin hem eps) n) (i : Fin n),
    (ldltSolve ⟨tol, true⟩ cs b i).val = ldltSolve tol (cs.map valCol) (fun i => (b i).val) i
  | [], b, i => rfl
  | c :: cs, b, i => by
    rw [List.map_cons, ldltSolve, ldltSolve]
    have ih := ldltSolve_val tol cs fun i => sub (b i) (mul (b c.p) (c.l i))
    have hx : (fun i => (ldltSolve ⟨tol, true⟩ cs (fun i => sub (b i) (mul (b c.p) (c.l i))) i).val) =
        ldltSolve tol (cs.map valCol) (fun i => sub (b i).val (mul (b c.p).val (c.l i).val)) := funext ih
    have hlt : lt (⟨tol, true⟩ : Tr p hp emin hem eps) (absF c.d) = lt tol (absF c.d.val) := by
      show lt tol (absF c.d).val = _
      rw [absF_val]
    simp only
    by_cases hi : i = c.p
    · rw [if_pos hi, if_pos (show i = (valCol c).p from hi)]
      show sub (if lt (⟨tol, true⟩ : Tr p hp emin hem eps) (absF c.d) then div (b c.p) c.d else ofInt 0).val
        (List.foldl (fun a c' => add a (mul (c.l c'.p) (ldltSolve ⟨tol, true⟩ cs (fun i => sub (b i) (mul (b c.p) (c.l i))) c'.p))) (ofInt 0 : Tr p hp emin hem eps) cs).val = _
      rw [sumCols_val]
      congr 1
      · rw [hlt]
        show _ = if lt tol (absF c.d.val) then div (b c.p).val c.d.val else ofInt 0
        split <;> rfl
      · congr 1
        funext a c'
        have := congrFun hx c'.p
        rw [this]; rfl
    · rw [if_neg hi, if_neg (show ¬i = (valCol c).p from hi)]
      exact ih i

theorem ldltSolve_rel {tol : Fl (Fmt.ieee p hp emin hem eps)} {tol' : Rd (binRnd p emin)} (ht : SameNum tol tol') {cs : List (LdltCol (Tr p hp emin hem eps) n)}
    {cs' : List (LdltCol (Rd (binRnd p emin)) n)} (h : List.Forall₂ RelCol cs cs') (hd : ∀ c ∈ cs, c.d.ok = true) :
    ∀ {b : Vec (Tr p hp emin hem eps) n} {b' : Vec (Rd (binRnd p emin)) n}, (∀ i, RelTr (b i) (b' i)) → ∀ i, RelTr (ldltSolve ⟨tol, true⟩ cs b i) (ldltSolve tol' cs' b' i) := by
  induction h with
  | nil => intro b b' _ i; exact RelTr.zero
  | @cons c c' cs cs' hc hcs ih =>
    intro b b' hb i
    have hp' := hc.p
    have hx := ih (fun c hc => hd c (List.mem_cons_of_mem _ hc)) (b := fun i => sub (b i) (mul (b c.p) (c.l i))) (b' := fun i => sub (b' i) (mul (b' c'.p) (c'.l i)))
      (fun i => (hb i).sub (by rw [hp']; exact (hb _).mul (hc.l i)))
    rw [ldltSolve, ldltSolve]
    simp only
    by_cases hi : i = c.p
    · rw [if_pos hi, if_pos (hi.trans hp')]
      refine RelTr.sub ?_ ?_
      · have hlt : lt (⟨tol, true⟩ : Tr p hp emin hem eps) (absF c.d) = lt tol' (absF c'.d) := by
          show lt tol (absF c.d).val = _
          rw [absF_val]
          exact lt_same ht (absF_same (hc.d (hd c (List.mem_cons_self ..))))
        rw [hlt]
        split
        · rw [hp']; exact (hb _).div hc.d
        · exact RelTr.zero
      · have : ∀ (cs : List (LdltCol (Tr p hp emin hem eps) n)) (cs' : List (LdltCol (Rd (binRnd p emin)) n)), List.Forall₂ RelCol cs cs' →
            ∀ (x : Vec (Tr p hp emin hem eps) n) (x' : Vec (Rd (binRnd p emin)) n), (∀ i, RelTr (x i) (x' i)) → ∀ (a : Tr p hp emin hem eps) (a' : Rd (binRnd p emin)), RelTr a a' →
            RelTr (cs.foldl (fun a k => add a (mul (c.l k.p) (x k.p))) a) (cs'.foldl (fun a k => add a (mul (c'.l k.p) (x' k.p))) a') := by
          intro cs cs' h
          induction h with
          | nil => intro x x' _ a a' h; exact h
          | cons hk _ ih2 =>
            intro x x' hx a a' h
            rw [List.foldl_cons, List.foldl_cons]
            exact ih2 x x' hx _ _ (h.add (by rw [hk.p]; exact (hc.l _).mul (hx _)))
        exact this cs cs' hcs _ _ hx _ _ RelTr.zero
    · rw [if_neg hi, if_neg (fun h => hi (h.trans hp'.symm))]
      exact hx i

/-! ### Theorems -/

/-- no operation of the elimination (pivots) or of the substitution (results) overflows or underflows -/
def NoFlow (tol : Fl (Fmt.ieee p hp emin hem eps)) (A : Mat (Fl (Fmt.ieee p hp emin hem eps)) n) (b : Vec (Fl (Fmt.ieee p hp emin hem eps)) n) : Prop :=
  (∀ c ∈ ldltForce (trM A) n [] (List.finRange n), c.d.ok = true) ∧ ∀ i, (ldltSolve ⟨tol, true⟩ (ldltForce (trM A) n [] (List.finRange n)) (trV b) i).ok = true

/-- the value of a finite number -/
def flQ : Fl (Fmt.ieee p hp emin hem eps) → ℚ
  | .fin q _ => q
  | _ => 0

/-- the value of a finite number, as a real -/
noncomputable def flR (a : Fl (Fmt.ieee p hp emin hem eps)) : ℝ := flQ a

theorem same_flR {a : Fl (Fmt.ieee p hp emin hem eps)} (h : finite a = true) : SameNum a ⟨flR a⟩ := by
  obtain ⟨q, hq, rfl⟩ := (Fl.finite_iff _).1 h
  exact ⟨q, hq, rfl, rfl⟩

theorem SameNum.flR {a : Fl (Fmt.ieee p hp emin hem eps)} {b : Rd (binRnd p emin)} (h : SameNum a b) : finite a = true ∧ flR a = b.v := by
  obtain ⟨q, hq, rfl, e⟩ := h
  exact ⟨rfl, e⟩

/-- **C113**, in the arithmetic of an IEEE format with precision `p`: a finite system whose matrix is at least `μ` times its diagonal, and on which nothing overflows or underflows, is
solved up to a few roundings, and the result is a descent direction. -/
theorem C113_ieee {tol : Fl (Fmt.ieee p hp emin hem eps)} {b : Vec (Fl (Fmt.ieee p hp emin hem eps)) n} {μ : ℝ} (hAf : ∀ i j, finite (A i j) = true) (hbf : ∀ i, finite (b i) = true)
    (htf : finite tol = true) (hA : Coercive μ (fun i j => flR (A i j))) (hμ : 4 * (n + 1) * solErr ((2 : ℝ) ^ (-(p : ℤ))) n ≤ μ) (hμ0 : 0 < μ) (hμ1 : μ ≤ 1)
    (htol : ∀ i, flR tol < μ / 4 * flR (A i i)) (hno : NoFlow tol A b) :
    ∃ x, eigenLdlt tol n A b = some x ∧ (∀ i, finite (x i) = true) ∧
      (∀ i, |flR (b i) - ∑ j, flR (A i j) * flR (x j)| ≤ 3 * solErr ((2 : ℝ) ^ (-(p : ℤ))) n * (√(flR (A i i)) * ∑ j, √(flR (A j j)) * |flR (x j)|)) ∧
      ((∃ i, flR (b i) ≠ 0) → 0 < ∑ i, flR (x i) * flR (b i)) := by
  have hu : (0 : ℝ) ≤ (2 : ℝ) ^ (-(p : ℤ)) := by positivity
  have hu2 : (2 : ℝ) ^ (-(p : ℤ)) ≤ 1 / 2 := by
    have : (2 : ℝ) ^ (-(p : ℤ)) ≤ 2 ^ (-1 : ℤ) := zpow_le_zpow_right₀ (by norm_num) (by have := Nat.pos_of_ne_zero hp; omega)
    simpa using this
  set A' : Mat (Rd (binRnd p emin)) n := fun i j => ⟨flR (A i j)⟩ with hA'
  set b' : Vec (Rd (binRnd p emin)) n := fun i => ⟨flR (b i)⟩ with hb'
  have hA2 : Coercive μ (matV A') := hA
  have hS0 := solErr_nonneg hu n
  have hμ' : 2 * (n + 1) * facErr ((2 : ℝ) ^ (-(p : ℤ))) n ≤ μ := by
    have hGS := facErr_le_solErr hu n
    have : (0 : ℝ) ≤ n := Nat.cast_nonneg n
    have := facErr_nonneg hu n
    nlinarith
  obtain ⟨cols, s, h1, h2, h3, hinv, h4⟩ := ldltGo_ieee rfl hu2 (fun i j => same_flR (hAf i j)) hA2 hμ' hμ0 hμ1 n [] [] (List.finRange n) .zero List.length_finRange (List.nodup_finRange n)
    (Or.inr rfl) (fun i => by simp) (by simp) ldInv_nil List.Forall₂.nil hno.1
  obtain ⟨x', hx', hr⟩ := C113_solves (tol := ⟨flR tol⟩) hu hu2 hA2 hμ hμ0 hμ1 htol b'
  obtain ⟨x'', hx'', -, hd⟩ := C113_descent (tol := ⟨flR tol⟩) hu hu2 hA2 hμ hμ0 hμ1 htol b'
  rw [hx'] at hx''
  injection hx'' with hx''
  subst hx''
  have e' : eigenLdlt (⟨flR tol⟩ : Rd (binRnd p emin)) n A' b' = some (ldltSolve ⟨flR tol⟩ cols b') := by
    unfold eigenLdlt
    rw [h3]
    simp only [if_pos h2]
  rw [hx'] at e'
  injection e' with e'
  have hsame : ∀ i, SameNum (ldltSolve tol ((ldltForce (trM A) n [] (List.finRange n)).map valCol) b i) (x' i) := by
    intro i
    have := ldltSolve_rel (same_flR htf) h4 hno.1 (b := trV b) (b' := b') (fun i _ => same_flR (hbf i)) i (hno.2 i)
    rw [ldltSolve_val, ← e'] at this
    exact this
  refine ⟨ldltSolve tol ((ldltForce (trM A) n [] (List.finRange n)).map valCol) b, ?_, fun i => (hsame i).flR.1, fun i => ?_, fun ⟨i, hi⟩ => ?_⟩
  · unfold eigenLdlt
    rw [show ldltGo A n [] (List.finRange n) false .zero = _ from h1]
    simp only [if_pos h2]
  · have := hr i
    simp only [(hsame _).flR.2]
    exact this
  · simp only [(hsame _).flR.2]
    exact hd fun h => hi (congrFun h i)

end

/-! ### Non-vacuity -/

section

/-- `double`, as one of the formats above -/
abbrev Dbl := Fl (Fmt.ieee 53 (by norm_num) (-1074) (by norm_num) (14073749 / 2 ^ 47))

/-- the matrix with rows (2 1), (1 2) -/
def twoOneF : Mat Dbl 2 := fun i j => if i = j then ofInt 2 else ofInt 1

/-- the vector (1, 3) -/
def oneThreeF : Vec Dbl 2 := fun i => if i = 0 then ofInt 1 else ofInt 3

theorem twoOneF_v (i j : Fin 2) : flR (twoOneF i j) = if i = j then 2 else 1 := by
  have : flQ (twoOneF i j) = if i = j then 2 else 1 := by
    revert i j; decide +kernel
  unfold flR
  rw [this]
  split <;> simp

/-- the system of the matrix and the vector meets all hypotheses, and the solution (computed with divisions by 2 and 1.5, the second pivot) is (-1/3, 5/3) up to roundings -/
example : NoFlow (ofInt 0) twoOneF oneThreeF ∧ ∃ x, eigenLdlt (ofInt 0) 2 twoOneF oneThreeF = some x ∧ (∀ i, finite (x i) = true) ∧ 0 < ∑ i, flR (x i) * flR (oneThreeF i) := by
  have hno : NoFlow (ofInt 0) twoOneF oneThreeF := by refine ⟨?_, ?_⟩ <;> decide +kernel
  have h0 : flR (ofInt 0 : Dbl) = 0 := by unfold flR; rw [show flQ (ofInt 0 : Dbl) = 0 by decide +kernel]; simp
  have h1 : flR (oneThreeF 0) = 1 := by unfold flR; rw [show flQ (oneThreeF 0) = 1 by decide +kernel]; simp
  obtain ⟨x, h2, h3, -, h4⟩ := C113_ieee (μ := 1 / 2) (A := twoOneF) (b := oneThreeF) (tol := ofInt 0) (by decide +kernel) (by decide +kernel) (by decide +kernel)
    ⟨fun i j => by simp only [twoOneF_v, eq_comm], fun i => by simp [twoOneF_v], fun x => by
      simp only [twoOneF_v]
      simp [dotR, mv, Fin.sum_univ_two]
      nlinarith [sq_nonneg (x 0 + x 1)]⟩ (by norm_num [solErr, zpow_neg]) (by norm_num) (by norm_num) (fun i => by rw [h0, twoOneF_v]; norm_num) hno
  exact ⟨hno, x, h2, h3, h4 ⟨0, by rw [h1]; norm_num⟩⟩

end
end Verif
