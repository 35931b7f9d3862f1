import Verif.Lemmas.Double
import Verif.Lemmas.LdltRoundGo
import Verif.Props.EigenLDLT
/-!
# `SolveLDLT` of a diagonal matrix in `double` arithmetic: one division per coefficient
-/

set_option linter.unusedSectionVars false

namespace Verif
open FloatOps

theorem Val.mul_zero {a : F64} {p : ℚ} (ha : Val a p) : FloatOps.mul a (ofInt 0) = ofInt 0 := by
  refine Val.eq_of (q := 0) ?_ val_zero
  have := ha.mul val_zero (by rw [MulZeroClass.mul_zero, abs_zero]; exact pow_nonneg (by norm_num) _)
  rwa [MulZeroClass.mul_zero, rndBin_zero] at this

theorem Val.zero_mul {a : F64} {p : ℚ} (ha : Val a p) : FloatOps.mul (ofInt 0) a = ofInt 0 := by
  refine Val.eq_of (q := 0) ?_ val_zero
  have := val_zero.mul ha (by rw [MulZeroClass.zero_mul, abs_zero]; exact pow_nonneg (by norm_num) _)
  rwa [MulZeroClass.zero_mul, rndBin_zero] at this

theorem Val.zero_div {a : F64} {p : ℚ} (ha : Val a p) (h : p ≠ 0) : FloatOps.div (ofInt 0) a = ofInt 0 := by
  refine Val.eq_of (q := 0) ?_ val_zero
  have := val_zero.div ha h (by rw [_root_.zero_div, abs_zero]; exact pow_nonneg (by norm_num) _)
  rwa [_root_.zero_div, rndBin_zero] at this

section
variable {n : ℕ} {A : Mat F64 n} {a : Fin n → ℚ} {tol : F64}

/-- a diagonal matrix of numbers that are at least `1/2` -/
structure DiagD (A : Mat F64 n) (a : Fin n → ℚ) : Prop where
  diag : ∀ i, Val (A i i) (a i)
  large : ∀ i, 1 / 2 ≤ a i
  off : ∀ i j, i ≠ j → A i j = ofInt 0

theorem DiagD.sym (h : DiagD A a) : DiagD (symUpper A) a := by
  refine ⟨fun i => ?_, h.large, fun i j hij => ?_⟩
  · unfold symUpper; rw [if_pos (le_refl _)]; exact h.diag i
  · unfold symUpper
    split
    · exact h.off i j hij
    · exact h.off j i hij.symm

theorem ldltDot_zero {done : List (LdltCol F64 n)} {i j : Fin n} (hd : ∀ c ∈ done, ∃ d, Val c.d d) (hi : ∀ c ∈ done, c.l i = ofInt 0) (hj : ∀ c ∈ done, c.l j = ofInt 0) :
    ldltDot done i j = ofInt 0 := by
  unfold ldltDot
  induction done with
  | nil => rfl
  | cons c cs ih =>
    obtain ⟨d, hd0⟩ := hd c List.mem_cons_self
    rw [List.foldl_cons, hi c List.mem_cons_self, hj c List.mem_cons_self, hd0.mul_zero, val_zero.mul_zero, val_zero.zero_add]
    exact ih (fun c hc => hd c (List.mem_cons_of_mem _ hc)) (fun c hc => hi c (List.mem_cons_of_mem _ hc)) fun c hc => hj c (List.mem_cons_of_mem _ hc)

/-- the decomposition of a diagonal matrix: the pivots are its diagonal, the columns of `L` are zero -/
theorem ldltGo_diag (h : DiagD A a) : ∀ (k : ℕ) (done : List (LdltCol F64 n)) (rem : List (Fin n)) (s : LdltSign), rem.length ≤ k → rem.Nodup → (∀ c ∈ done, ∃ d, Val c.d d) →
    (∀ c ∈ done, ∀ i ∈ rem, c.l i = ofInt 0) → (s = .pos ∨ s = .zero) →
    ∃ new s', ldltGo A k done rem false s = some (done ++ new, s') ∧ (s' = .pos ∨ s' = .zero) ∧ (new.map (·.p)).Nodup ∧ (∀ i, i ∈ new.map (·.p) ↔ i ∈ rem) ∧ (∀ c ∈ new, c.d = A c.p c.p) ∧
      new.Pairwise fun c c' => c.l c'.p = ofInt 0 := by
  intro k
  induction k with
  | zero =>
    intro done rem s hl hn hd hz hs
    obtain rfl : rem = [] := List.eq_nil_of_length_eq_zero (by omega)
    exact ⟨[], s, by simp [ldltGo], hs, by simp, by simp, by simp, by simp⟩
  | succ k ih =>
    intro done rem s hl hn hd hz hs
    cases rem with
    | nil => exact ⟨[], s, by simp [ldltGo], hs, by simp, by simp, by simp, by simp⟩
    | cons b t =>
      have hp := ldltPick_in A b t
      obtain ⟨hsn, hsf, hsl⟩ := ldltSwap_spec hn hp
      set p := ldltPick A b t with hpdef
      have hmem : ∀ i, i ∈ ldltSwap b p t ↔ i ≠ p ∧ i ∈ b :: t := fun i => by
        rw [← List.mem_toFinset, hsf, Finset.mem_erase, List.mem_toFinset]
      have hA := h.diag p
      have h0 : (0 : ℚ) < a p := by have := h.large p; linarith
      have e1 : ldltRest A done p p = A p p := by
        unfold ldltRest
        rw [ldltDot_zero hd (fun c hc => hz c hc p hp) (fun c hc => hz c hc p hp)]
        exact hA.sub_zero
      have e2 : lt (ofInt 0) (absF (A p p)) = true := by
        rw [val_zero.lt hA.absF, abs_of_pos h0]; simpa using h0
      have e3 : lt (ofInt 0) (A p p) = true := by
        rw [val_zero.lt hA]; simpa using h0
      have e4 : lt (A p p) (ofInt 0) = false := by
        rw [hA.lt val_zero]; simp; exact h0.le
      have e5 : ∀ i ∈ ldltSwap b p t, div (ldltRest A done i p) (A p p) = ofInt 0 := fun i hi => by
        obtain ⟨hip, hi⟩ := (hmem i).1 hi
        unfold ldltRest
        rw [ldltDot_zero hd (fun c hc => hz c hc i hi) (fun c hc => hz c hc p hp), h.off i p hip, val_zero.sub_zero, hA.zero_div h0.ne']
      have e6 : ldltSign s (A p p) = .pos := by
        rcases hs with rfl | rfl <;> simp [ldltSign, e3, e4]
      obtain ⟨new, s', g1, g2, g3, g4, g5, g6⟩ := ih (done ++ [⟨p, A p p, fun i => div (ldltRest A done i p) (A p p)⟩]) (ldltSwap b p t) .pos
        (by rw [hsl]; simpa using hl) hsn
        (fun c hc => by
          rcases List.mem_append.1 hc with hc | hc
          · exact hd c hc
          · rw [List.mem_singleton.1 hc]; exact ⟨_, hA⟩)
        (fun c hc i hi => by
          rcases List.mem_append.1 hc with hc | hc
          · exact hz c hc i ((hmem i).1 hi).2
          · rw [List.mem_singleton.1 hc]; exact e5 i hi)
        (Or.inl rfl)
      refine ⟨⟨p, A p p, fun i => div (ldltRest A done i p) (A p p)⟩ :: new, s', ?_, g2, ?_, ?_, ?_, ?_⟩
      · rw [ldltGo]
        simp only [← hpdef, e1, e2, Bool.not_true, Bool.false_and, Bool.false_eq_true, if_false, if_true, e6, g1]
        simp
      · rw [List.map_cons, List.nodup_cons]
        refine ⟨fun hc => ?_, g3⟩
        exact ((hmem p).1 ((g4 p).1 hc)).1 rfl
      · intro i
        rw [List.map_cons, List.mem_cons, g4, hmem]
        by_cases hi : i = p
        · subst hi; simp [hp]
        · simp [hi]
      · intro c hc
        rcases List.mem_cons.1 hc with rfl | hc
        · rfl
        · exact g5 c hc
      · rw [List.pairwise_cons]
        exact ⟨fun c hc => e5 _ ((g4 _).1 (List.mem_map_of_mem hc)), g6⟩

/-- solving with these factors -/
theorem ldltSolve_diag (h : DiagD A a) {t : ℚ} (ht : Val tol t) (ht2 : t < 1 / 2) : ∀ (cs : List (LdltCol F64 n)) (b : Vec F64 n) (β : Fin n → ℚ), (cs.map (·.p)).Nodup → (∀ c ∈ cs, c.d = A c.p c.p) →
    (cs.Pairwise fun c c' => c.l c'.p = ofInt 0) → (∀ c ∈ cs, Val (b c.p) (β c.p)) → (∀ c ∈ cs, |β c.p / a c.p| ≤ 10 ^ 308) →
    ∀ c ∈ cs, ldltSolve tol cs b c.p = div (b c.p) (A c.p c.p) := by
  intro cs
  induction cs with
  | nil => intro b β _ _ _ _ _ c hc; simp at hc
  | cons c cs ih =>
    intro b β hn hd hl hb hq e he
    rw [List.map_cons, List.nodup_cons] at hn
    rw [List.pairwise_cons] at hl
    have hcb := hb c List.mem_cons_self
    have hy : ∀ e ∈ cs, sub (b e.p) (mul (b c.p) (c.l e.p)) = b e.p := fun e he => by
      rw [hl.1 e he, hcb.mul_zero]
      exact (hb e (List.mem_cons_of_mem _ he)).sub_zero
    have hrec := ih (fun i => sub (b i) (mul (b c.p) (c.l i))) β hn.2 (fun e he => hd e (List.mem_cons_of_mem _ he)) hl.2
      (fun e he => by
        show Val (sub (b e.p) (mul (b c.p) (c.l e.p))) _
        rw [hy e he]; exact hb e (List.mem_cons_of_mem _ he))
      (fun e he => hq e (List.mem_cons_of_mem _ he))
    have hne : ∀ i, a i ≠ 0 := fun i => by have := h.large i; intro e; rw [e] at this; norm_num at this
    have hval : ∀ e ∈ c :: cs, ∃ v, Val (div (b e.p) (A e.p e.p)) v := fun e he => ⟨_, (hb e he).div (h.diag e.p) (hne _) (hq e he)⟩
    rw [ldltSolve]
    by_cases hec : e.p = c.p
    · simp only [hec, if_true]
      have e4 : lt tol (absF c.d) = true := by
        rw [hd c List.mem_cons_self, ht.lt (h.diag c.p).absF]
        have := h.large c.p
        rw [abs_of_pos (by linarith)]; simp; linarith
      rw [if_pos e4, hd c List.mem_cons_self]
      have hf : ∀ (l : List (LdltCol F64 n)), (∀ e ∈ l, e ∈ cs) → l.foldl (fun s c' => add s (mul (c.l c'.p) (ldltSolve tol cs (fun i => sub (b i) (mul (b c.p) (c.l i))) c'.p))) (ofInt 0) = ofInt 0 := by
        intro l
        induction l with
        | nil => intro _; rfl
        | cons f l ihl =>
          intro hm
          have hf := hm f List.mem_cons_self
          obtain ⟨v, hv⟩ := hval f (List.mem_cons_of_mem _ hf)
          rw [List.foldl_cons, hl.1 f hf, hrec f hf]
          have e9 : div (sub (b f.p) (mul (b c.p) (c.l f.p))) (A f.p f.p) = div (b f.p) (A f.p f.p) := by rw [hy f hf]
          rw [e9, hv.zero_mul, val_zero.zero_add]
          exact ihl fun e he => hm e (List.mem_cons_of_mem _ he)
      rw [hf cs fun e he => he]
      obtain ⟨v, hv⟩ := hval c List.mem_cons_self
      exact hv.sub_zero
    · simp only [hec, if_false]
      rcases List.mem_cons.1 he with rfl | he
      · exact absurd rfl hec
      · rw [hrec e he, hy e he]

/-- **`SolveLDLT` of a diagonal matrix**: every coefficient of the right side is divided by that of the diagonal, and nothing else is rounded. -/
theorem ldlt_diag (h : DiagD A a) {b : Vec F64 n} {β : Fin n → ℚ} {t : ℚ} (ht : Val tol t) (ht2 : t < 1 / 2) (hb : ∀ i, Val (b i) (β i)) (hq : ∀ i, |β i / a i| ≤ 10 ^ 308) :
    eigenLdlt tol n A b = some fun i => div (b i) (A i i) := by
  obtain ⟨new, s', g1, g2, g3, g4, g5, g6⟩ := ldltGo_diag h n [] (List.finRange n) .zero (by simp) (List.nodup_finRange n) (by simp) (by simp) (Or.inr rfl)
  unfold eigenLdlt
  rw [g1, List.nil_append]
  simp only
  rw [if_pos g2]
  congr 1
  funext i
  obtain ⟨c, hc, rfl⟩ := List.mem_map.1 ((g4 i).2 (List.mem_finRange i))
  exact ldltSolve_diag h ht ht2 new b β g3 g5 g6 (fun c _ => hb c.p) (fun c _ => hq c.p) c hc

end
end Verif
