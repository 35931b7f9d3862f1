import Verif.Props.JetProps
/-!
# C37: jets of run-time dimension

The property does not hold of all operations: see the counterexamples at the end.
-/

namespace Verif
namespace Loss

open Classical

/-- the jet of run-time dimension `d` stands for the jet `j`: the same value, and the same infinitesimal part or an unset one for zeros -/
def Rep {n} (d : DJet) (j : SJet n) : Prop := d.a = j.a ∧ ((d.v = [] ∧ j.v = 0) ∨ d.v = List.ofFn j.v)

/-- The condition under which the operations of jets of run-time dimension are right: the operands of `hypot`, `fma` and `lerp` are all set or all
unset, there is no `midpoint`, and no `fmax` or `fmin` of equal values. -/
def Expr.Safe {n} (x : RVec n) : Expr n → Prop
  | .var _ => True
  | .const _ => True
  | .op1 _ e => e.Safe x
  | .op2 o e₁ e₂ => e₁.Safe x ∧ e₂.Safe x ∧
      match o with
      | .hypot => ∀ f g, e₁.djet x = .ok f → e₂.djet x = .ok g → f.v.length = g.v.length
      | .midpoint => False
      | .fmax => e₁.value x ≠ e₂.value x
      | .fmin => e₁.value x ≠ e₂.value x
      | _ => True
  | .op3 _ e₁ e₂ e₃ => e₁.Safe x ∧ e₂.Safe x ∧ e₃.Safe x ∧
      ∀ f g h, e₁.djet x = .ok f → e₂.djet x = .ok g → e₃.djet x = .ok h → f.v.length = g.v.length ∧ g.v.length = h.v.length

theorem ofFn_eq_nil {n} (h : 0 < n) (v : RVec n) : List.ofFn v ≠ [] := by
  intro e
  have := congrArg List.length e
  simp at this
  omega

theorem rep_ofFn {n} {d : DJet} {j : SJet n} (h : Rep d j) (hd : d.v.length = n) : d.v = List.ofFn j.v := by
  rcases h.2 with ⟨h1, h2⟩ | h1
  · rw [h1] at hd
    have : n = 0 := hd.symm
    subst this
    simp [h1]
  · exact h1

theorem rep_mem {n} {d : DJet} {j : SJet n} (h : Rep d j) {P : ℝ → Prop} (hu : ∃ u ∈ d.v, P u) : ∃ i, P (j.v i) := by
  obtain ⟨u, hm, hp⟩ := hu
  rcases h.2 with ⟨h1, -⟩ | h1
  · rw [h1] at hm; cases hm
  · rw [h1, List.mem_ofFn] at hm
    obtain ⟨i, rfl⟩ := hm
    exact ⟨i, hp⟩

theorem replicate_eq_ofFn (n : Nat) : List.replicate n (0 : ℝ) = List.ofFn (0 : RVec n) := by
  have : (0 : RVec n) = fun _ => 0 := rfl
  rw [this, List.ofFn_const]

theorem zipWith_ofFn {n} (c : ℝ → ℝ → ℝ) (u w : RVec n) : List.zipWith c (List.ofFn u) (List.ofFn w) = List.ofFn fun i => c (u i) (w i) := by
  apply List.ext_getElem
  · simp
  · intro i h1 h2
    simp

theorem mem_zip_ofFn {n} {u w : RVec n} {p : ℝ × ℝ} (h : p ∈ (List.ofFn u).zip (List.ofFn w)) : ∃ i, p = (u i, w i) := by
  obtain ⟨k, hk, hp⟩ := List.getElem_of_mem h
  have hk' : k < n := by simpa using hk
  refine ⟨⟨k, hk'⟩, ?_⟩
  rw [← hp]
  simp

/-- linear in the infinitesimal parts: zeros give zeros -/
theorem rule1_zero (o : Op1) (a : ℝ) (r : Rule1) (h : rule1 o a = some r) : r.comp 0 = 0 ∧ (r.scalar = true → ∀ u, r.comp u = 0) := by
  cases o <;> simp only [rule1, Rule1.undiff] at h <;> (repeat' split at h) <;> first | (cases h; done) | (cases Option.some.inj h; simp)

theorem rule2_zero (o : Op2) (a b : ℝ) (r : Rule2) (h : rule2 o a b = some r) :
    r.comp 0 0 = 0 ∧ (r.shape = .left → r.comp = fun u _ => u) ∧ (r.shape = .right → r.comp = fun _ w => w) ∧ (r.shape = .scalar → r.comp = fun _ _ => 0) := by
  cases o <;> simp only [rule2, Rule2.undiff] at h <;> (repeat' split at h) <;> first | (cases h; done) | (cases Option.some.inj h; simp)

theorem rule3_zero (o : Op3) (a b c : ℝ) (r : Rule3) (h : rule3 o a b c = some r) : r.comp 0 0 0 = 0 := by
  cases o <;> simp only [rule3] at h <;> (repeat' split at h) <;> first | (cases h; done) | (cases Option.some.inj h; simp)

/-- one operation of one argument -/
theorem op1_rep {n} (o : Op1) {d : DJet} {j j' : SJet n} (h : Rep d j) (hj : SJet.op1 o j = .ok j') : ∃ d', DJet.op1 o d = .ok d' ∧ Rep d' j' := by
  unfold SJet.op1 at hj
  unfold DJet.op1
  rw [h.1]
  rcases hr : rule1 o j.a with _ | r
  · rw [hr] at hj; cases hj
  · rw [hr] at hj
    simp only at hj ⊢
    obtain ⟨h0, hsc⟩ := rule1_zero o _ r hr
    split at hj
    · cases hj
    rename_i hn
    have hn' : ¬ ∃ u ∈ d.v, r.nan u := fun hu => hn (rep_mem h hu)
    cases hj
    by_cases hs : r.scalar = true
    · rw [if_pos hs, if_neg hn']
      exact ⟨_, rfl, rfl, Or.inl ⟨rfl, by funext i; simp [hsc hs]⟩⟩
    · rw [if_neg hs, if_neg hn']
      refine ⟨_, rfl, rfl, ?_⟩
      rcases h.2 with ⟨h1, h2⟩ | h1
      · left; refine ⟨by simp [h1], ?_⟩
        funext i; simp [h2, h0]
      · right; simp [h1, List.map_ofFn, Function.comp_def]

theorem orZeros_rep {n} {f g : DJet} {j k : SJet n} (hf : Rep f j) (hg : Rep g k) :
    (orZeros f.v g.v = [] ∧ orZeros g.v f.v = [] ∧ j.v = 0 ∧ k.v = 0) ∨ (orZeros f.v g.v = List.ofFn j.v ∧ orZeros g.v f.v = List.ofFn k.v) := by
  rcases Nat.eq_zero_or_pos n with rfl | hn
  · right
    have e : ∀ (d : DJet) (j : SJet 0), Rep d j → d.v = [] := by
      intro d j h
      rcases h.2 with ⟨h, -⟩ | h
      · exact h
      · simp [h]
    simp [orZeros, e _ _ hf, e _ _ hg]
  · have hl : ∀ v : RVec n, (List.ofFn v).length > 0 := by intro v; simp; exact hn
    rcases hf.2 with ⟨h1, h2⟩ | h1 <;> rcases hg.2 with ⟨h3, h4⟩ | h3
    · left; simp [orZeros, h1, h3, h2, h4]
    · right
      simp only [orZeros, h1, h3, h2, if_pos hn, List.length_nil, List.length_ofFn, gt_iff_lt, lt_self_iff_false, if_false, and_true]
      exact replicate_eq_ofFn n
    · right
      simp only [orZeros, h1, h3, h4, if_pos hn, List.length_nil, List.length_ofFn, gt_iff_lt, lt_self_iff_false, if_false, true_and]
      exact replicate_eq_ofFn n
    · right; simp only [orZeros, h1, h3, if_pos (hl _), and_self]

theorem zip2_rep {n} (r : Rule2) (h0 : r.comp 0 0 = 0) {u w : List ℝ} {j k : SJet n}
    (h : (u = [] ∧ w = [] ∧ j.v = 0 ∧ k.v = 0) ∨ (u = List.ofFn j.v ∧ w = List.ofFn k.v)) (hn : ¬ ∃ i, r.nan (j.v i) (k.v i)) :
    ∃ d, DJet.zip2 r u w = .ok d ∧ Rep d (⟨r.val, fun i => r.comp (j.v i) (k.v i)⟩ : SJet n) := by
  unfold DJet.zip2
  rcases h with ⟨rfl, rfl, h1, h2⟩ | ⟨rfl, rfl⟩
  · refine ⟨⟨r.val, []⟩, by simp, rfl, Or.inl ⟨rfl, ?_⟩⟩
    funext i; simp [h1, h2, h0]
  · rw [if_neg (by simp), if_neg]
    · exact ⟨_, rfl, rfl, Or.inr (zipWith_ofFn _ _ _)⟩
    · rintro ⟨p, hp, hnan⟩
      obtain ⟨i, rfl⟩ := mem_zip_ofFn hp
      exact hn ⟨i, hnan⟩

theorem lens_rep {n} {f g : DJet} {j k : SJet n} (hf : Rep f j) (hg : Rep g k) (hl : f.v.length = g.v.length) :
    (f.v = [] ∧ g.v = [] ∧ j.v = 0 ∧ k.v = 0) ∨ (f.v = List.ofFn j.v ∧ g.v = List.ofFn k.v) := by
  rcases Nat.eq_zero_or_pos n with rfl | hn
  · have e : ∀ (d : DJet) (j : SJet 0), Rep d j → d.v = [] := by
      intro d j h
      rcases h.2 with ⟨h, -⟩ | h
      · exact h
      · simp [h]
    right; simp [e _ _ hf, e _ _ hg]
  · rcases hf.2 with ⟨h1, h2⟩ | h1 <;> rcases hg.2 with ⟨h3, h4⟩ | h3
    · left; exact ⟨h1, h3, h2, h4⟩
    · rw [h1, h3] at hl; simp at hl; omega
    · rw [h1, h3] at hl; simp at hl; omega
    · right; exact ⟨h1, h3⟩

/-- one operation of two arguments -/
theorem op2_rep {n} (o : Op2) {f g : DJet} {j k j' : SJet n} (hf : Rep f j) (hg : Rep g k) (hj : SJet.op2 o j k = .ok j')
    (hraw : ∀ r, rule2 o j.a k.a = some r → r.shape = .raw → f.v.length = g.v.length) (hloop : ∀ r, rule2 o j.a k.a = some r → r.shape ≠ .loop) :
    ∃ d', DJet.op2 o f g = .ok d' ∧ Rep d' j' := by
  unfold SJet.op2 at hj
  unfold DJet.op2
  rw [hf.1, hg.1]
  rcases hr : rule2 o j.a k.a with _ | r
  · rw [hr] at hj; cases hj
  · rw [hr] at hj
    simp only at hj ⊢
    obtain ⟨h0, hL, hR, hS⟩ := rule2_zero o _ _ r hr
    split at hj
    · cases hj
    rename_i hn
    cases hj
    rcases hs : r.shape with _ | _ | _ | _ | _ | _
    · exact zip2_rep r h0 (orZeros_rep hf hg) hn
    · exact zip2_rep r h0 (lens_rep hf hg (hraw r hr hs)) hn
    · exact absurd hs (hloop r hr)
    · refine ⟨_, rfl, rfl, ?_⟩
      simp only [hL hs]; exact hf.2
    · refine ⟨_, rfl, rfl, ?_⟩
      simp only [hR hs]; exact hg.2
    · refine ⟨_, rfl, rfl, Or.inl ⟨rfl, ?_⟩⟩
      simp only [hS hs]; rfl

/-- one operation of three arguments -/
theorem op3_rep {n} (o : Op3) {f g h : DJet} {j k l j' : SJet n} (hf : Rep f j) (hg : Rep g k) (hh : Rep h l) (hj : SJet.op3 o j k l = .ok j')
    (h1 : f.v.length = g.v.length) (h2 : g.v.length = h.v.length) : ∃ d', DJet.op3 o f g h = .ok d' ∧ Rep d' j' := by
  unfold SJet.op3 at hj
  unfold DJet.op3
  rw [hf.1, hg.1, hh.1]
  rcases hr : rule3 o j.a k.a l.a with _ | r
  · rw [hr] at hj; cases hj
  · rw [hr] at hj
    simp only at hj ⊢
    have h0 := rule3_zero o _ _ _ r hr
    split at hj
    · cases hj
    rename_i hn
    cases hj
    rw [if_neg (by simp [h1, h2])]
    rcases lens_rep hf hg h1 with ⟨e1, e2, e3, e4⟩ | ⟨e1, e2⟩
    · have e5 : h.v = [] := by rw [e2] at h2; exact List.length_eq_zero_iff.1 h2.symm
      refine ⟨⟨r.val, []⟩, by simp [e1], rfl, Or.inl ⟨rfl, ?_⟩⟩
      funext i
      have e6 : l.v = 0 := by
        rcases hh.2 with ⟨-, e⟩ | e
        · exact e
        · rw [e5] at e
          have := congrArg List.length e
          simp at this
          exact absurd i.isLt (by omega)
      simp [e3, e4, e6, h0]
    · have e5 : h.v = List.ofFn l.v := rep_ofFn hh (by rw [← h2, e2]; simp)
      have key : (f.v.zip (g.v.zip h.v)) = List.ofFn fun i => (j.v i, k.v i, l.v i) := by
        rw [e1, e2, e5]
        apply List.ext_getElem
        · simp
        · intro i a b; simp
      rw [key, if_neg]
      · refine ⟨_, rfl, rfl, Or.inr ?_⟩
        simp [List.map_ofFn, Function.comp_def]
      · rintro ⟨p, hp, hnan⟩
        obtain ⟨i, rfl⟩ := List.mem_ofFn.1 hp
        exact hn ⟨i, hnan⟩

theorem bind_ok {α β : Type*} {x : Out α} {k : α → Out β} {b : β} (h : x.bind k = .ok b) : ∃ a, x = .ok a ∧ k a = .ok b := by
  cases x with
  | ok a => exact ⟨a, rfl, h⟩
  | nonfinite => cases h
  | ub => cases h

/-- **C37** (partial). Whenever the computation with jets of compile-time dimension is finite, and the expression satisfies `Safe`, the computation with jets of
run-time dimension has no access out of bounds and gives the same result, an unset infinitesimal part counting as zeros. Missing: the expressions that are not
`Safe`, for which this fails, see `C37_hypot_fails` and the other counterexamples. -/
theorem C37_partial {n} (e : Expr n) (x : RVec n) (j : SJet n) (hj : e.jet x = .ok j) (hs : e.Safe x) :
    ∃ d, e.djet x = .ok d ∧ Rep d j := by
  induction e generalizing j with
  | var i => cases hj; exact ⟨_, rfl, rfl, Or.inr rfl⟩
  | const c => cases hj; exact ⟨_, rfl, rfl, Or.inl ⟨rfl, rfl⟩⟩
  | op1 o e ih =>
    obtain ⟨f, hf, hj⟩ := bind_ok (show (e.jet x).bind (SJet.op1 o) = .ok j from hj)
    obtain ⟨d, hd, hr⟩ := ih f hf hs
    obtain ⟨d', hd', hr'⟩ := op1_rep o hr hj
    exact ⟨d', by simp only [Expr.djet, hd, Out.bind, hd'], hr'⟩
  | op2 o e₁ e₂ ih₁ ih₂ =>
    obtain ⟨f, hf, hj⟩ := bind_ok (show (e₁.jet x).bind (fun f => (e₂.jet x).bind (SJet.op2 o f)) = .ok j from hj)
    obtain ⟨g, hg, hj⟩ := bind_ok hj
    obtain ⟨s1, s2, s3⟩ := hs
    obtain ⟨d, hd, hr⟩ := ih₁ f hf s1
    obtain ⟨c, hc, hq⟩ := ih₂ g hg s2
    have v1 := C36_value e₁ x f hf
    have v2 := C36_value e₂ x g hg
    obtain ⟨d', hd', hr'⟩ := op2_rep o hr hq hj
      (by
        intro r hr0 hsh
        cases o <;> simp only [rule2, Rule2.undiff] at hr0 <;> (repeat' split at hr0) <;> (try cases hr0) <;>
          first | (cases hsh; done) | exact s3 d c hd hc)
      (by
        intro r hr0 hsh
        cases o <;> simp only [rule2, Rule2.undiff] at hr0 <;> (repeat' split at hr0) <;> (try cases hr0) <;> try (cases hsh; done)
        · rename_i h1 h2; rw [v1, v2] at h1 h2; exact s3 (le_antisymm (not_lt.1 h2) (not_lt.1 h1))
        · rename_i h1 h2; rw [v1, v2] at h1 h2; exact s3 (le_antisymm (not_lt.1 h1) (not_lt.1 h2))
        · exact s3)
    exact ⟨d', by simp only [Expr.djet, hd, hc, Out.bind, hd'], hr'⟩
  | op3 o e₁ e₂ e₃ ih₁ ih₂ ih₃ =>
    obtain ⟨f, hf, hj⟩ := bind_ok (show (e₁.jet x).bind (fun f => (e₂.jet x).bind fun g => (e₃.jet x).bind (SJet.op3 o f g)) = .ok j from hj)
    obtain ⟨g, hg, hj⟩ := bind_ok hj
    obtain ⟨k, hk, hj⟩ := bind_ok hj
    obtain ⟨s1, s2, s3, s4⟩ := hs
    obtain ⟨d, hd, hr⟩ := ih₁ f hf s1
    obtain ⟨c, hc, hq⟩ := ih₂ g hg s2
    obtain ⟨b, hb, hp⟩ := ih₃ k hk s3
    obtain ⟨l1, l2⟩ := s4 d c b hd hc hb
    obtain ⟨d', hd', hr'⟩ := op3_rep o hr hq hp hj l1 l2
    exact ⟨d', by simp only [Expr.djet, hd, hc, hb, Out.bind, hd'], hr'⟩

/-- **C37**, `Eval`: with the check of the residuals, the residuals and the Jacobian are those of the compile-time dimension; residuals that are not connected
to the parameters have rows of zeros. -/
theorem C37_eval_partial {n m} (e : Fin m → Expr n) (x : RVec n) (r : RVec m × RMat m n) (h : evalJac e x = some r) (hs : ∀ i, (e i).Safe x) :
    evalJacD true e x = some r := by
  unfold evalJac at h
  split at h
  · rename_i hok
    choose j hj using hok
    choose d hd hr using fun i => C37_partial (e i) x (j i) (hj i) (hs i)
    have hrow : ∀ i, (rowD true (d i) : Out (RVec n)) = .ok (j i).v := by
      intro i
      unfold rowD
      by_cases hl : (d i).v.length = n
      · rw [if_neg (by simp [hl])]
        have := rep_ofFn (hr i) hl
        congr 1
        funext k
        rw [this]
        simp
      · rw [if_pos hl, if_pos rfl]
        rcases (hr i).2 with ⟨-, h2⟩ | h2
        · rw [h2]
        · rw [h2] at hl; simp at hl
    unfold evalJacD
    rw [if_pos fun i => ⟨d i, (j i).v, hd i, hrow i⟩, ← Option.some.inj h]
    simp only [hd, hj, Out.bind, hrow, (hr _).1]
  · cases h

/-! ### Counterexamples -/

/-- **C37** fails for `hypot(x, 3)`: the operands have different sizes (the same holds of `fma` and `lerp`), where a compile-time dimension gives the
derivative `x / hypot(x, 3)`. -/
theorem C37_hypot_fails : ∃ (e : Expr 1) (x : RVec 1), e.InDomain x ∧ e.djet x = .ub := by
  refine ⟨.op2 .hypot (.var 0) (.const 3), fun _ => 4, ⟨trivial, trivial, Or.inl (Or.inl (by norm_num [Expr.value]))⟩, ?_⟩
  have h5 : Real.sqrt ((4 : ℝ) ^ 2 + 3 ^ 2) ≠ 0 := by positivity
  simp only [Expr.djet, Out.bind, DJet.op2, rule2, if_neg h5, DJet.zip2]
  simp

/-- the same for `fma(x, 2, 1)` and `lerp(0, 1, x)` -/
theorem C37_fma_lerp_fail : ∀ (o : Op3), (o = .fma ∨ o = .lerp) → ∃ (e₁ e₂ e₃ : Expr 1) (x : RVec 1),
    (Expr.op3 o e₁ e₂ e₃).InDomain x ∧ (Expr.op3 o e₁ e₂ e₃).djet x = .ub := by
  intro o ho
  refine ⟨.var 0, .const 2, .const 1, fun _ => 1, ⟨trivial, trivial, trivial, ?_⟩, ?_⟩
  · rcases ho with rfl | rfl <;> trivial
  · rcases ho with rfl | rfl <;> simp [Expr.djet, Out.bind, DJet.op3, rule3]

/-- `midpoint(x, y)` of two parameters writes into an empty vector; `midpoint(1, x)` loses the derivative without notice. -/
theorem C37_midpoint_fails :
    (∃ x : RVec 2, (Expr.op2 (n := 2) .midpoint (.var 0) (.var 1)).djet x = .ub) ∧
    (∃ (x : RVec 1) (d : DJet) (j : SJet 1), (Expr.op2 (n := 1) .midpoint (.const 1) (.var 0)).djet x = .ok d ∧
      (Expr.op2 (n := 1) .midpoint (.const 1) (.var 0)).jet x = .ok j ∧ d.v = [] ∧ j.v 0 = 1 / 2) := by
  refine ⟨⟨0, by simp [Expr.djet, Out.bind, DJet.op2, rule2]⟩, ⟨0, ⟨1 / 2, []⟩, ⟨1 / 2, fun _ => 1 / 2⟩, ?_, ?_, rfl, rfl⟩⟩
  · simp [Expr.djet, Out.bind, DJet.op2, rule2]
  · simp only [Expr.jet, Out.bind, SJet.op2, rule2]
    simp
    funext i
    have : i = 0 := Subsingleton.elim _ _
    subst this; simp

/-- `fmax` of two parameters with equal values writes into an empty vector. -/
theorem C37_fmax_fails : ∃ x : RVec 2, (Expr.op2 (n := 2) .fmax (.var 0) (.var 1)).djet x = .ub ∧
    ∃ j, (Expr.op2 (n := 2) .fmax (.var 0) (.var 1)).jet x = .ok j := by
  refine ⟨0, by simp [Expr.djet, Out.bind, DJet.op2, rule2], ?_⟩
  simp [Expr.jet, Out.bind, SJet.op2, rule2]

/-- `pow(-2, x)` at an integer `x` writes a NaN into an empty vector, where a compile-time dimension returns a NaN. -/
theorem C37_pow_fails : ∃ x : RVec 1, (Expr.op1 (n := 1) (.powB (-2)) (.var 0)).djet x = .ub ∧ (Expr.op1 (n := 1) (.powB (-2)) (.var 0)).jet x = .nonfinite := by
  refine ⟨fun _ => 1, ?_, ?_⟩
  · simp [Expr.djet, Out.bind, DJet.op1, rule1]
  · simp [Expr.jet, Out.bind, SJet.op1, rule1]

/-- a residual that is not connected to the parameters: `OptimizeWithAutoDiff`, which does not check the residuals, assigns a vector of the wrong size -/
theorem C37_unconnected_residual_fails : ∃ (e : Fin 1 → Expr 1) (x : RVec 1), (∀ i, (e i).InDomain x) ∧ (∀ i, (e i).Safe x) ∧
    evalJacD false e x = none := by
  refine ⟨fun _ => .const 1, 0, fun _ => trivial, fun _ => trivial, ?_⟩
  unfold evalJacD
  rw [if_neg]
  intro h
  obtain ⟨d, j, hd, hj⟩ := h 0
  cases hd
  simp [rowD] at hj

/-- `Safe` expressions with unset operands: `x₀ * 2 + hypot(x₀, x₁)`, with the constant 2 unset -/
example (x : RVec 2) : (Expr.op2 (n := 2) .add (.op2 .mul (.var 0) (.const 2)) (.op2 .hypot (.var 0) (.var 1))).Safe x := by
  refine ⟨⟨trivial, trivial, trivial⟩, ⟨trivial, trivial, ?_⟩, trivial⟩
  intro f g hf hg
  cases hf; cases hg
  simp

end Loss
end Verif
