import Verif.Model.JetTypes
import Mathlib.Algebra.BigOperators.Group.List.Basic
import Mathlib.Data.List.TakeDrop
import Mathlib.Tactic.Ring
/-!
# C108: the computations with types behind the jets
-/

namespace Verif.JetTypes

/-! ## Integer sequences -/

theorem scanImpl_some {lo hi : Int} : ∀ (ns rs : List Int) (sum : Int),
    (∀ k, k < ns.length → lo ≤ sum + (ns.take (k + 1)).sum ∧ sum + (ns.take (k + 1)).sum ≤ hi) →
    scanImpl lo hi sum ns rs = some (rs ++ (List.range ns.length).map fun i => sum + (ns.take i).sum) := by
  intro ns
  induction ns with
  | nil => intro rs sum _; simp [scanImpl]
  | cons n ns ih =>
    intro rs sum h
    have h0 := h 0 (by simp)
    simp only [Nat.zero_add, List.take_succ_cons, List.take_zero, List.sum_cons, List.sum_nil, add_zero] at h0
    rw [scanImpl, if_pos h0, ih (rs ++ [sum]) (sum + n)]
    · rw [List.length_cons, List.range_succ_eq_map, List.map_cons, List.map_map, List.append_assoc]
      congr 1
      simp only [List.take_zero, List.sum_nil, add_zero, List.singleton_append]
      congr 2
      refine List.map_congr_left fun i _ => ?_
      simp only [Function.comp, List.take_succ_cons, List.sum_cons]
      ring
    · intro k hk
      have := h (k + 1) (by simpa using hk)
      rw [List.take_succ_cons, List.sum_cons] at this
      rwa [add_assoc]

theorem scanImpl_none {lo hi : Int} : ∀ (ns rs : List Int) (sum : Int),
    (∃ k, k < ns.length ∧ ¬(lo ≤ sum + (ns.take (k + 1)).sum ∧ sum + (ns.take (k + 1)).sum ≤ hi)) → scanImpl lo hi sum ns rs = none := by
  intro ns
  induction ns with
  | nil => rintro rs sum ⟨k, hk, _⟩; simp at hk
  | cons n ns ih =>
    rintro rs sum ⟨k, hk, h⟩
    rw [scanImpl]
    by_cases h0 : lo ≤ sum + n ∧ sum + n ≤ hi
    · rw [if_pos h0]
      refine ih _ _ ?_
      cases k with
      | zero => simp at h; omega
      | succ k =>
        refine ⟨k, by simpa using hk, ?_⟩
        rw [List.take_succ_cons, List.sum_cons] at h
        rwa [add_assoc]
    · rw [if_neg h0]

/-- **C108**, `ExclusiveScan`: the `i`-th element of the result is the sum of the elements before the `i`-th, and the result has the length of the sequence, provided that all partial
sums, up to the total, are in the range of the integer type; otherwise the template cannot be instantiated. -/
theorem C108_exclusive_scan (lo hi : Int) (seq : List Int) :
    ((∃ R, exclusiveScan lo hi seq = some R) ↔ ∀ k, k < seq.length → lo ≤ (seq.take (k + 1)).sum ∧ (seq.take (k + 1)).sum ≤ hi) ∧
    ∀ R, exclusiveScan lo hi seq = some R → R.length = seq.length ∧ ∀ i (hi : i < R.length), R[i] = (seq.take i).sum := by
  have key : (∀ k, k < seq.length → lo ≤ (seq.take (k + 1)).sum ∧ (seq.take (k + 1)).sum ≤ hi) →
      exclusiveScan lo hi seq = some ((List.range seq.length).map fun i => (seq.take i).sum) := fun h => by
    have := scanImpl_some (lo := lo) (hi := hi) seq [] 0 (by simpa using h)
    simpa [exclusiveScan] using this
  have key2 : (∃ R, exclusiveScan lo hi seq = some R) → ∀ k, k < seq.length → lo ≤ (seq.take (k + 1)).sum ∧ (seq.take (k + 1)).sum ≤ hi := by
    rintro ⟨R, hR⟩
    by_contra hc
    push Not at hc
    obtain ⟨k, hk, h⟩ := hc
    have := scanImpl_none (lo := lo) (hi := hi) seq [] 0 ⟨k, hk, fun h2 => by
      rw [zero_add] at h2
      exact absurd h2.2 (not_le.mpr (h h2.1))⟩
    rw [exclusiveScan, this] at hR
    exact absurd hR (by simp)
  refine ⟨⟨key2, fun h => ⟨_, key h⟩⟩, fun R hR => ?_⟩
  rw [key (key2 ⟨R, hR⟩), Option.some.injEq] at hR
  subst hR
  exact ⟨by simp, fun i hi => by simp⟩

/-- the example of the comment in lines 61-68 -/
example : exclusiveScan (-2147483648) 2147483647 [1, 4, 3] = some [0, 1, 5] := by decide

/-- the total is not part of the result, but must be in the range -/
example : exclusiveScan (-128) 127 [100, 27] = some [0, 100] ∧ exclusiveScan (-128) 127 [100, 28] = none := by decide

theorem removeImpl_eq (v : Int) : ∀ l acc : List Int, removeImpl v acc l = acc ++ l.filter fun a => decide (a ≠ v) := by
  intro l
  induction l with
  | nil => intro acc; simp [removeImpl]
  | cons a l ih =>
    intro acc
    rw [removeImpl]
    by_cases h : a = v
    · rw [if_pos h, ih]; simp [h]
    · rw [if_neg h, ih]; simp [h]

/-- **C108**, `RemoveValue`: the elements other than the value, all of them and in their order. -/
theorem C108_remove_value (seq : List Int) (v : Int) :
    (removeValue seq v).Sublist seq ∧ v ∉ removeValue seq v ∧ ∀ a, a ≠ v → (removeValue seq v).count a = seq.count a := by
  have e : removeValue seq v = seq.filter fun a => decide (a ≠ v) := by rw [removeValue, removeImpl_eq]; rfl
  rw [e]
  refine ⟨List.filter_sublist, by simp, fun a ha => ?_⟩
  rw [List.count_filter]
  simpa using ha

/-- the examples of the comment in lines 159-162 -/
example : removeValue [1, 2, 3] 4 = [1, 2, 3] ∧ removeValue [0, 0, 2] 2 = [0, 0] := by decide

/-- **C108**, `IsEmptyOrAreAllEqual`. -/
theorem C108_all_equal (seq : List Int) : isEmptyOrAllEqual seq = true ↔ ∀ a ∈ seq, ∀ b ∈ seq, a = b := by
  cases seq with
  | nil => simp [isEmptyOrAllEqual]
  | cons h t =>
    simp only [isEmptyOrAllEqual, List.all_eq_true, decide_eq_true_eq]
    refine ⟨fun e a ha b hb => ?_, fun e v hv => e h (by simp) v (by simp [hv])⟩
    have e' : ∀ x ∈ h :: t, h = x := fun x hx => by
      rcases List.mem_cons.mp hx with rfl | hx
      · rfl
      · exact e x hx
    rw [← e' a ha, ← e' b hb]

example : isEmptyOrAllEqual [3, 3, 3] = true ∧ isEmptyOrAllEqual [3, 3, 2] = false := by decide

/-! ## Operands -/

/-- the type is a jet -/
def IsJet : Ty → Prop
  | .jet _ _ => True
  | _ => False

theorem areAnyJet_iff (ts : List Ty) : areAnyJet ts = true ↔ ∃ t ∈ ts, IsJet t := by
  induction ts with
  | nil => simp [areAnyJet]
  | cons t ts ih => cases t <;> simp [areAnyJet, ih, IsJet]

theorem areAllSame_iff (ts : List Ty) : areAllSame ts = true ↔ ∀ a ∈ ts, ∀ b ∈ ts, a = b := by
  cases ts with
  | nil => simp [areAllSame]
  | cons h t =>
    simp only [areAllSame, List.all_eq_true, decide_eq_true_eq]
    refine ⟨fun e a ha b hb => ?_, fun e v hv => e h (by simp) v (by simp [hv])⟩
    have e' : ∀ x ∈ h :: t, h = x := fun x hx => by
      rcases List.mem_cons.mp hx with rfl | hx
      · rfl
      · exact e x hx
    rw [← e' a ha, ← e' b hb]

theorem ranks_equal (ts : List Ty) : isEmptyOrAllEqual (removeValue (ts.map tyRank) 0) = true ↔ ∀ t ∈ ts, ∀ u ∈ ts, tyRank t ≠ 0 → tyRank u ≠ 0 → tyRank t = tyRank u := by
  have mem : ∀ a, a ∈ removeValue (ts.map tyRank) 0 ↔ ∃ t ∈ ts, tyRank t = a ∧ a ≠ 0 := fun a => by
    rw [removeValue, removeImpl_eq]
    simp only [List.nil_append, List.mem_filter, List.mem_map, decide_eq_true_eq]
    constructor
    · rintro ⟨⟨t, ht, h⟩, ha⟩; exact ⟨t, ht, h, ha⟩
    · rintro ⟨t, ht, h, ha⟩; exact ⟨⟨t, ht, h⟩, ha⟩
  rw [C108_all_equal]
  constructor
  · intro h t ht u hu h0 h1
    exact h _ ((mem _).mpr ⟨t, ht, rfl, h0⟩) _ ((mem _).mpr ⟨u, hu, rfl, h1⟩)
  · intro h a ha b hb
    obtain ⟨t, ht, rfl, h0⟩ := (mem a).mp ha
    obtain ⟨u, hu, rfl, h1⟩ := (mem b).mp hb
    exact h t ht u hu h0 h1

/-- A type a user computes with: a number, or jets, of jets, …, of numbers with at least one derivative (or `Dynamic`) each. -/
def Numeric : Ty → Prop
  | .scalar _ => True
  | .other _ => False
  | .jet T N => N ≠ 0 ∧ Numeric T

theorem rank_dims {ts : List Ty} (h : ∀ t ∈ ts, Numeric t) :
    (∀ t ∈ ts, ∀ u ∈ ts, tyRank t ≠ 0 → tyRank u ≠ 0 → tyRank t = tyRank u) ↔ ∀ T N U M, Ty.jet T N ∈ ts → Ty.jet U M ∈ ts → N = M := by
  constructor
  · intro e T N U M ht hu
    exact e _ ht _ hu (h _ ht).1 (h _ hu).1
  · intro e t ht u hu h0 h1
    cases t with
    | scalar => exact absurd rfl h0
    | other => exact (h _ ht).elim
    | jet T N =>
      cases u with
      | scalar => exact absurd rfl h1
      | other => exact (h _ hu).elim
      | jet U M => exact e T N U M ht hu

theorem compatible_general {ts : List Ty} : compatible ts = (areAnyJet ts && areAllSame (ts.map underlying) && isEmptyOrAllEqual (removeValue (ts.map tyRank) 0)) := by
  match ts with
  | [] => rfl
  | [.jet T N] =>
    have e : isEmptyOrAllEqual (removeValue [N] 0) = true := (C108_all_equal _).mpr fun a ha b hb => by
      have hs := (C108_remove_value [N] 0).1
      have h1 := hs.subset ha
      have h2 := hs.subset hb
      simp at h1 h2
      rw [h1, h2]
    show true = (true && true && isEmptyOrAllEqual (removeValue [N] 0))
    rw [e]; rfl
  | [.scalar _] => rfl
  | [.other _] => rfl
  | _ :: _ :: _ => rw [compatible] <;> simp

/-- **C108**, `CompatibleJetOperands` and `PromotableJetOperands` say what their comments say: among numbers and jets, at least one operand is a jet, all jets have the same number of
derivatives, and, for the first, all underlying floating-point types are the same. -/
theorem C108_operands {ts : List Ty} (h : ∀ t ∈ ts, Numeric t) :
    (compatible ts = true ↔ (∃ t ∈ ts, IsJet t) ∧ (∀ t ∈ ts, ∀ u ∈ ts, underlying t = underlying u) ∧ ∀ T N U M, Ty.jet T N ∈ ts → Ty.jet U M ∈ ts → N = M) ∧
    (promotable ts = true ↔ (∃ t ∈ ts, IsJet t) ∧ ∀ T N U M, Ty.jet T N ∈ ts → Ty.jet U M ∈ ts → N = M) := by
  rw [compatible_general, promotable]
  simp only [Bool.and_eq_true]
  rw [areAnyJet_iff, areAllSame_iff, ranks_equal, rank_dims h]
  refine ⟨?_, Iff.rfl⟩
  rw [and_assoc]
  refine and_congr_right fun _ => and_congr_left fun _ => ?_
  simp only [List.mem_map]
  constructor
  · intro e t ht u hu; exact e _ ⟨t, ht, rfl⟩ _ ⟨u, hu, rfl⟩
  · rintro e _ ⟨t, ht, rfl⟩ _ ⟨u, hu, rfl⟩; exact e t ht u hu

/-- jets of three derivatives with numbers: `Jet<double, 3>` and `double`, and `Jet<float, 3>` -/
example : compatible [.jet .dbl 3, .dbl, .jet .dbl 3] = true ∧ compatible [.jet .dbl 3, .jet (.scalar 2) 3] = false ∧ promotable [.jet .dbl 3, .jet (.scalar 2) 3] = true ∧
    promotable [.jet .dbl 3, .jet .dbl 2] = false ∧ (∀ t ∈ [Ty.jet .dbl 3, .dbl, .jet .dbl 3], Numeric t) := by
  refine ⟨by decide, by decide, by decide, by decide, ?_⟩
  intro t ht
  simp at ht
  rcases ht with rfl | rfl | rfl <;> simp [Numeric, Ty.dbl]

/-- **C108**, violation: the rank -1 of the types that are no numbers is the number of derivatives of jets with run-time size, so that such jets can be "compared" with any type at all;
and jets without derivatives match jets of any size. -/
theorem C108_rank_clash : (∀ T k, promotable [.jet T (-1), .other k] = true) ∧ ∀ N, compatible [.jet .dbl 0, .jet .dbl N] = true := by
  refine ⟨fun T k => rfl, fun N => ?_⟩
  show (true && true && isEmptyOrAllEqual (removeValue [0, N] 0)) = true
  rw [Bool.and_self, Bool.true_and]
  show isEmptyOrAllEqual (removeImpl 0 [] [N]) = true
  rw [removeImpl]
  split <;> rfl

/-! ## Common types -/

/-- jets of jets of …: the numbers of derivatives, outermost first, and the underlying scalar -/
def nest (s : Nat) : List Int → Ty
  | [] => .scalar s
  | N :: l => .jet (nest s l) N

theorem numeric_nest {t : Ty} (h : Numeric t) : ∃ s l, t = nest s l ∧ ∀ N ∈ l, N ≠ 0 := by
  induction t with
  | scalar s => exact ⟨s, [], rfl, by simp⟩
  | other => exact h.elim
  | jet T N ih =>
    obtain ⟨s, l, rfl, hl⟩ := ih h.2
    refine ⟨s, N :: l, rfl, fun M hM => ?_⟩
    rcases List.mem_cons.mp hM with rfl | hM
    · exact h.1
    · exact hl M hM

theorem common_scalar (a s : Nat) : ∀ l, commonType (.scalar a) (nest s l) = some (nest (max a s) l) ∧ commonType (nest s l) (.scalar a) = some (nest (max s a) l) := by
  intro l
  induction l with
  | nil => simp [nest, commonType]
  | cons N l ih =>
    simp only [nest]
    rw [commonType, commonType, ih.1, ih.2]
    · exact ⟨rfl, rfl⟩
    · simp
    · simp

/-- **C108**, `std::common_type` of jets of jets: it exists exactly when the numbers of derivatives of one of the two types, from the outside to the inside, begin those of the other;
it is the jet with the longer list, over the common type of the scalars. -/
theorem C108_common_type (s t : Nat) (l m : List Int) :
    (l <+: m → commonType (nest s l) (nest t m) = some (nest (max s t) m)) ∧ (m <+: l → commonType (nest s l) (nest t m) = some (nest (max s t) l)) ∧
    (¬l <+: m → ¬m <+: l → commonType (nest s l) (nest t m) = none) := by
  induction l generalizing m with
  | nil =>
    refine ⟨fun _ => (common_scalar s t m).1, fun h => ?_, fun h => absurd List.nil_prefix h⟩
    rw [List.prefix_nil.mp h]
    simp [nest, commonType]
  | cons N l ih =>
    cases m with
    | nil => exact ⟨fun h => absurd (List.prefix_nil.mp h) (by simp), fun _ => (common_scalar t s (N :: l)).2, fun _ h => absurd List.nil_prefix h⟩
    | cons M m =>
      simp only [nest]
      rw [commonType]
      by_cases e : N = M
      · subst e
        rw [if_pos rfl]
        obtain ⟨h1, h2, h3⟩ := ih m
        simp only [List.cons_prefix_cons, true_and]
        exact ⟨fun h => by rw [h1 h]; rfl, fun h => by rw [h2 h]; rfl, fun h h' => by rw [h3 h h']; rfl⟩
      · rw [if_neg e]
        simp only [List.cons_prefix_cons, e, false_and, not_false_eq_true, true_implies]
        exact ⟨fun h => h.elim, fun h => absurd h.1.symm e, fun _ => trivial⟩

example : commonType (.jet .dbl 2) (.scalar 2) = some (.jet .dbl 2) ∧ commonType (.jet (.jet .dbl 2) 3) (.jet (.scalar 0) 3) = some (.jet (.jet .dbl 2) 3) := by
  refine ⟨?_, ?_⟩
  · simp [commonType, Ty.dbl]
  · simp [commonType, Ty.dbl]

/-- **C108**: two operands that are numbers or jets of numbers and that `fmax`, `fmin`, `fdim` accept as compatible have a common type, the jet among them, and `fmax` and `fmin` compile. -/
theorem C108_fmax_compiles_partial {s t : Nat} {l m : List Int} (hl : l.length ≤ 1) (hm : m.length ≤ 1) (h0 : ∀ N ∈ l ++ m, N ≠ 0)
    (hc : compatible [nest s l, nest t m] = true) :
    s = t ∧ (∃ N, commonType (nest s l) (nest t m) = some (.jet (.scalar s) N) ∧ (nest s l = .jet (.scalar s) N ∨ nest t m = .jet (.scalar s) N)) ∧ fmaxOk (nest s l) (nest t m) = true := by
  have hn : ∀ u ∈ [nest s l, nest t m], Numeric u := by
    have : ∀ (k : List Int) (r : Nat), (∀ N ∈ k, N ≠ 0) → Numeric (nest r k) := by
      intro k
      induction k with
      | nil => intro r _; trivial
      | cons N k ih => intro r h; exact ⟨h N (by simp), ih r fun M hM => h M (by simp [hM])⟩
    intro u hu
    simp at hu
    rcases hu with rfl | rfl
    · exact this l s fun N hN => h0 N (by simp [hN])
    · exact this m t fun N hN => h0 N (by simp [hN])
  obtain ⟨hj, hu, hd⟩ := (C108_operands hn).1.mp hc
  have und : ∀ (k : List Int) (r : Nat), underlying (nest r k) = .scalar r := by
    intro k r
    induction k with
    | nil => rfl
    | cons N k ih => exact ih
  have est : s = t := by
    have := hu (nest s l) (by simp) (nest t m) (by simp)
    rw [und, und] at this
    injection this
  subst est
  refine ⟨rfl, ?_⟩
  match l, m, hl, hm with
  | [], [], _, _ =>
    obtain ⟨u, hu, h⟩ := hj
    simp [nest] at hu
    subst hu
    exact h.elim
  | [], [M], _, _ =>
    have e : commonType (nest s []) (nest s [M]) = some (.jet (.scalar s) M) := by
      rw [(C108_common_type s s [] [M]).1 List.nil_prefix, max_self]; rfl
    refine ⟨⟨M, e, Or.inr rfl⟩, ?_⟩
    rw [fmaxOk, hc, e]
    simp [bracesOk, nest]
  | [N], [], _, _ =>
    have e : commonType (nest s [N]) (nest s []) = some (.jet (.scalar s) N) := by
      rw [(C108_common_type s s [N] []).2.1 List.nil_prefix, max_self]; rfl
    refine ⟨⟨N, e, Or.inl rfl⟩, ?_⟩
    rw [fmaxOk, hc, e]
    simp [bracesOk, nest]
  | [N], [M], _, _ =>
    have eN : N = M := hd (.scalar s) N (.scalar s) M (by simp [nest]) (by simp [nest])
    subst eN
    have e : commonType (nest s [N]) (nest s [N]) = some (.jet (.scalar s) N) := by
      rw [(C108_common_type s s [N] [N]).1 (List.prefix_refl _), max_self]; rfl
    refine ⟨⟨N, e, Or.inl rfl⟩, ?_⟩
    rw [fmaxOk, hc, e]
    simp [bracesOk, nest]

example : compatible [nest 3 [4], nest 3 []] = true ∧ (∀ N ∈ [(4 : Int)] ++ [], N ≠ 0) := by decide

/-- **C108**, violation: "compatible" looks at the outermost numbers of derivatives only. `Jet<Jet<double, 2>, 3>` and `Jet<Jet<double, 4>, 3>` are compatible, but have no common type;
`Jet<Jet<double, 2>, 3>` and `double` are compatible and have a common type, but `fmax` and `fmin` of them do not compile, as a number is not converted to a jet of jets. -/
theorem C108_nested_operands :
    (compatible [nest 3 [3, 2], nest 3 [3, 4]] = true ∧ commonType (nest 3 [3, 2]) (nest 3 [3, 4]) = none) ∧
    ∀ (s : Nat) (N M : Int) (l : List Int), N ≠ 0 → compatible [nest s (N :: M :: l), nest s []] = true ∧ commonType (nest s (N :: M :: l)) (nest s []) = some (nest s (N :: M :: l)) ∧
      fmaxOk (nest s (N :: M :: l)) (nest s []) = false := by
  refine ⟨⟨by decide, ?_⟩, fun s N M l hN => ?_⟩
  · exact (C108_common_type 3 3 [3, 2] [3, 4]).2.2 (by decide) (by decide)
  · have und : ∀ (k : List Int), underlying (nest s k) = .scalar s := by
      intro k
      induction k with
      | nil => rfl
      | cons N k ih => exact ih
    have hc : compatible [nest s (N :: M :: l), nest s []] = true := by
      rw [compatible_general]
      simp only [Bool.and_eq_true]
      refine ⟨⟨rfl, ?_⟩, ?_⟩
      · rw [areAllSame_iff]; simp [und]
      · rw [ranks_equal]
        intro t ht u hu h0 h1
        simp only [List.mem_cons, List.not_mem_nil, or_false] at ht hu
        rcases ht with rfl | rfl
        · rcases hu with rfl | rfl
          · rfl
          · exact absurd rfl h1
        · exact absurd rfl h0
    have e : commonType (nest s (N :: M :: l)) (nest s []) = some (nest s (N :: M :: l)) := by
      rw [(C108_common_type s s (N :: M :: l) []).2.1 List.nil_prefix, max_self]
    refine ⟨hc, e, ?_⟩
    rw [fmaxOk, hc, e]
    simp [bracesOk, nest]

end Verif.JetTypes
