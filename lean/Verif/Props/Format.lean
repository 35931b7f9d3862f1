import Verif.Model.Format
import Mathlib.Data.List.Basic
import Mathlib.Tactic.Linarith
/-!
# C82: the formatter of C++17 builds (`log.h`)
-/

namespace Verif

/-- no brace in a text -/
def Plain (t : List Char) : Prop := '{' ∉ t ∧ '}' ∉ t

/-- a format string: a text, then placeholders (what stands between the braces) followed by texts -/
structure FmtStr where
  head : List Char
  rest : List (List Char × List Char)

namespace FmtStr

/-- texts without braces; no closing brace inside of a placeholder -/
def Good (f : FmtStr) : Prop := Plain f.head ∧ ∀ p ∈ f.rest, '}' ∉ p.1 ∧ Plain p.2

/-- the format string as it is written: `head{spec}text{spec}text...` -/
def written (f : FmtStr) : List Char := f.head ++ (f.rest.map fun p => '{' :: (p.1 ++ '}' :: p.2)).flatten

/-- the string with its first placeholders replaced by the arguments, up to the first that has none -/
def filled (f : FmtStr) (args : List (List Char)) : List Char := f.head ++ ((f.rest.zip args).map fun p => p.2 ++ p.1.2).flatten

end FmtStr

/-! ### The loops -/

theorem charAt_append (p : List Char) (c : Char) (r : List Char) : charAt (p ++ c :: r) p.length = some c := by
  unfold charAt
  rw [dif_pos (by simp)]
  simp

theorem charAt_end (p : List Char) : charAt p p.length = some (Char.ofNat 0) := by
  unfold charAt
  rw [dif_neg (lt_irrefl _), if_pos rfl]

theorem skipTo_closed (f : List Char) (r : List Char) (hf : '}' ∉ f) (q : List Char) (i : Nat) (hq : q.length = i + 1) :
    skipTo (q ++ (f ++ '}' :: r)) i = some (i + 1 + f.length) := by
  induction f generalizing q i with
  | nil =>
    unfold skipTo
    rw [← hq, List.nil_append, charAt_append]
    simp
  | cons c f ih =>
    have hc : c ≠ '}' := fun h => hf (by simp [h])
    unfold skipTo
    rw [← hq, List.cons_append, charAt_append]
    have h1 : q.length < (q ++ c :: (f ++ '}' :: r)).length := by simp
    simp only [hc, ne_eq, not_false_eq_true, h1, and_self, if_true]
    have := ih (fun h => hf (by simp [h])) (q ++ [c]) q.length (by simp)
    rw [List.append_assoc] at this
    rw [List.singleton_append] at this
    rw [this, List.length_cons]
    congr 1
    omega

theorem skipTo_open (f : List Char) (hf : '}' ∉ f) (q : List Char) (i : Nat) (hq : q.length = i + 1) :
    skipTo (q ++ f) i = some (i + 1 + f.length) := by
  induction f generalizing q i with
  | nil =>
    unfold skipTo
    rw [← hq, List.append_nil, charAt_end]
    simp
  | cons c f ih =>
    have hc : c ≠ '}' := fun h => hf (by simp [h])
    unfold skipTo
    rw [← hq, charAt_append]
    have h1 : q.length < (q ++ c :: f).length := by simp
    simp only [hc, ne_eq, not_false_eq_true, h1, and_self, if_true]
    have := ih (fun h => hf (by simp [h])) (q ++ [c]) q.length (by simp)
    rw [List.append_assoc, List.singleton_append] at this
    rw [this, List.length_cons]
    congr 1
    omega

theorem fmtLoop_text (t r : List Char) (ht : Plain t) (args : List (List Char)) (p : List Char) (k : Nat) (out : List Char) :
    fmtLoop (p ++ (t ++ r)) args p.length k out = fmtLoop (p ++ t ++ r) args (p ++ t).length k (out ++ t) := by
  induction t generalizing p out with
  | nil => simp
  | cons c t ih =>
    have h1 : c ≠ '{' := fun h => ht.1 (by simp [h])
    have h2 : c ≠ '}' := fun h => ht.2 (by simp [h])
    conv_lhs => unfold fmtLoop
    rw [if_pos (by simp), List.cons_append, charAt_append]
    simp only [h1, h2, if_false]
    have := ih ⟨fun h => ht.1 (by simp [h]), fun h => ht.2 (by simp [h])⟩ (p ++ [c]) (out ++ [c])
    simp only [List.append_assoc, List.singleton_append, List.length_append, List.length_cons, List.length_nil, List.cons_append, List.nil_append] at this ⊢
    exact this

theorem fmtLoop_place (f r : List Char) (hf : '}' ∉ f) (args : List (List Char)) (p : List Char) (k : Nat) (out : List Char) :
    fmtLoop (p ++ '{' :: (f ++ '}' :: r)) args p.length k out =
      match args[k]? with
      | none => .notEnough
      | some a => fmtLoop (p ++ '{' :: (f ++ ['}']) ++ r) args (p ++ '{' :: (f ++ ['}'])).length (k + 1) (out ++ a) := by
  conv_lhs => unfold fmtLoop
  rw [if_pos (by simp), charAt_append]
  simp only [if_true]
  cases args[k]? with
  | none => rfl
  | some a =>
    simp only
    have h1 := skipTo_closed f r hf (p ++ ['{']) p.length (by simp)
    rw [List.append_assoc, List.singleton_append] at h1
    rw [h1]
    simp only [List.append_assoc, List.cons_append, List.nil_append, List.length_append, List.length_cons, List.length_nil]
    congr 1
    omega

theorem fmtLoop_open (f : List Char) (hf : '}' ∉ f) (args : List (List Char)) (p : List Char) (k : Nat) (out : List Char) :
    fmtLoop (p ++ '{' :: f) args p.length k out =
      match args[k]? with
      | none => .notEnough
      | some a => if k + 1 < args.length then .tooMany else .ok (out ++ a) := by
  conv_lhs => unfold fmtLoop
  rw [if_pos (by simp), charAt_append]
  simp only [if_true]
  cases args[k]? with
  | none => rfl
  | some a =>
    simp only
    have h1 := skipTo_open f hf (p ++ ['{']) p.length (by simp)
    rw [List.append_assoc, List.singleton_append] at h1
    rw [h1]
    simp only
    unfold fmtLoop
    rw [if_neg (by simp; omega)]

theorem fmtLoop_stray (r : List Char) (args : List (List Char)) (p : List Char) (k : Nat) (out : List Char) :
    fmtLoop (p ++ '}' :: r) args p.length k out = .invalid := by
  unfold fmtLoop
  rw [if_pos (by simp), charAt_append]
  simp

theorem fmtLoop_end (args : List (List Char)) (p : List Char) (k : Nat) (out : List Char) :
    fmtLoop p args p.length k out = if k < args.length then .tooMany else .ok out := by
  unfold fmtLoop
  rw [if_neg (by simp)]

/-- a good format string followed by anything -/
theorem fmtLoop_good (f : FmtStr) (hf : f.Good) (e : List Char) (args : List (List Char)) (p : List Char) (k : Nat) (out : List Char) :
    fmtLoop (p ++ (f.written ++ e)) args p.length k out =
      if f.rest.length ≤ args.length - k then
        fmtLoop (p ++ f.written ++ e) args (p ++ f.written).length (k + f.rest.length) (out ++ f.filled (args.drop k))
      else .notEnough := by
  obtain ⟨head, rest⟩ := f
  obtain ⟨h1, h2⟩ := hf
  induction rest generalizing head p k out with
  | nil =>
    simp only [FmtStr.written, FmtStr.filled, List.map_nil, List.flatten_nil, List.append_nil, List.length_nil, Nat.zero_le, if_true, List.zip_nil_left, Nat.add_zero]
    exact fmtLoop_text head e h1 args p k out
  | cons q rest ih =>
    obtain ⟨sp, tx⟩ := q
    obtain ⟨h3, h4⟩ := h2 (sp, tx) (by simp)
    have h5 := fun out => ih (p ++ head ++ '{' :: (sp ++ ['}'])) (k + 1) out tx h4 (fun p hp => h2 p (List.mem_cons_of_mem _ hp))
    have e1 : (⟨head, (sp, tx) :: rest⟩ : FmtStr).written = head ++ '{' :: (sp ++ '}' :: (⟨tx, rest⟩ : FmtStr).written) := by
      simp [FmtStr.written]
    rw [e1]
    have e2 : p ++ (head ++ '{' :: (sp ++ '}' :: (⟨tx, rest⟩ : FmtStr).written) ++ e) = p ++ (head ++ '{' :: (sp ++ '}' :: ((⟨tx, rest⟩ : FmtStr).written ++ e))) := by simp
    rw [e2, fmtLoop_text head _ h1, fmtLoop_place sp _ h3]
    cases hk : args[k]? with
    | none =>
      have : args.length ≤ k := by simpa using hk
      simp only
      rw [if_neg]
      simp
      omega
    | some a =>
      simp only
      have hlt : k < args.length := by
        by_contra h
        rw [List.getElem?_eq_none (by omega)] at hk
        cases hk
      rw [h5]
      simp only [List.length_cons]
      have e3 : (rest.length ≤ args.length - (k + 1)) ↔ (rest.length + 1 ≤ args.length - k) := by omega
      simp only [e3]
      have e4 : (⟨head, (sp, tx) :: rest⟩ : FmtStr).filled (args.drop k) = head ++ a ++ (⟨tx, rest⟩ : FmtStr).filled (args.drop (k + 1)) := by
        rw [List.drop_eq_getElem_cons hlt]
        rw [List.getElem?_eq_getElem hlt] at hk
        injection hk with hk
        simp [FmtStr.filled, hk]
      rw [e4]
      have e5 : k + 1 + rest.length = k + (rest.length + 1) := by omega
      rw [e5]
      simp

/-! ### The property -/

/-- **C82.** A format string whose braces are paired: it needs as many arguments as it has placeholders; with fewer `std::out_of_range` is thrown, with more
`std::invalid_argument`; otherwise the placeholders are replaced by the arguments, in order, whatever stands between the braces. -/
theorem C82_format_partial (f : FmtStr) (hf : f.Good) (args : List (List Char)) :
    (args.length < f.rest.length → format2 f.written args = .notEnough) ∧
    (f.rest.length < args.length → format2 f.written args = .tooMany) ∧
    (args.length = f.rest.length → format2 f.written args = .ok (f.filled args)) := by
  have h := fmtLoop_good f hf [] args [] 0 []
  simp only [List.nil_append, List.append_nil, List.length_nil, Nat.sub_zero, Nat.zero_add, List.drop_zero] at h
  rw [fmtLoop_end] at h
  have h' : format2 f.written args = _ := h
  rw [h']
  refine ⟨fun h1 => ?_, fun h1 => ?_, fun h1 => ?_⟩
  · rw [if_neg (by omega)]
  · rw [if_pos (by omega), if_pos h1]
  · rw [if_pos (by omega), if_neg (by omega)]

/-- **C82**, a closing brace outside of a placeholder is an error. -/
theorem C82_stray (f : FmtStr) (hf : f.Good) (r : List Char) (args : List (List Char)) :
    format2 (f.written ++ '}' :: r) args = if args.length < f.rest.length then .notEnough else .invalid := by
  have h := fmtLoop_good f hf ('}' :: r) args [] 0 []
  simp only [List.nil_append, List.length_nil, Nat.sub_zero, Nat.zero_add, List.drop_zero] at h
  rw [fmtLoop_stray] at h
  refine (show format2 _ args = _ from h).trans ?_
  split <;> split <;> first | rfl | omega

/-- **C82 is violated** by an opening brace that is never closed: it takes an argument like a placeholder, and the rest of the string is dropped. -/
theorem C82_unclosed (f : FmtStr) (hf : f.Good) (r : List Char) (hr : '}' ∉ r) (args : List (List Char)) (a : List Char) (h1 : args.length = f.rest.length) :
    format2 (f.written ++ '{' :: r) (args ++ [a]) = .ok (f.filled args ++ a) := by
  have h := fmtLoop_good f hf ('{' :: r) (args ++ [a]) [] 0 []
  simp only [List.nil_append, List.length_nil, Nat.sub_zero, Nat.zero_add, List.drop_zero] at h
  rw [fmtLoop_open r hr, if_pos (by simp; omega)] at h
  refine (show format2 _ _ = _ from h).trans ?_
  have : (args ++ [a])[f.rest.length]? = some a := by rw [← h1]; simp
  rw [this]
  simp only [List.length_append, List.length_cons, List.length_nil]
  rw [if_neg (by omega)]
  congr 2
  simp only [FmtStr.filled]
  congr 3
  rw [← List.append_nil f.rest, List.zip_append h1.symm]
  simp

/-- every string is a good format string, possibly followed by a stray closing brace or by an opening brace that is never closed -/
theorem fmt_cases (s : List Char) : ∃ f : FmtStr, f.Good ∧ (s = f.written ∨ (∃ r, s = f.written ++ '}' :: r) ∨ ∃ r, '}' ∉ r ∧ s = f.written ++ '{' :: r) := by
  induction hn : s.length using Nat.strong_induction_on generalizing s with
  | _ n ih =>
    cases s with
    | nil => exact ⟨⟨[], []⟩, ⟨⟨by simp, by simp⟩, by simp⟩, Or.inl rfl⟩
    | cons c s =>
      by_cases h1 : c = '}'
      · exact ⟨⟨[], []⟩, ⟨⟨by simp, by simp⟩, by simp⟩, Or.inr (Or.inl ⟨s, by simp [FmtStr.written, h1]⟩)⟩
      by_cases h2 : c = '{'
      · subst h2
        by_cases h3 : '}' ∈ s
        · obtain ⟨sp, r, hs, hsp⟩ := List.eq_append_cons_of_mem h3
          obtain ⟨⟨head, rest⟩, hg, hc⟩ := ih r.length (by subst hn; rw [hs]; simp; omega) r rfl
          have e : (⟨[], (sp, head) :: rest⟩ : FmtStr).written = '{' :: (sp ++ '}' :: (⟨head, rest⟩ : FmtStr).written) := by simp [FmtStr.written]
          refine ⟨⟨[], (sp, head) :: rest⟩, ⟨⟨by simp, by simp⟩, ?_⟩, ?_⟩
          · intro p hp
            rcases List.mem_cons.mp hp with rfl | hp
            · exact ⟨hsp, hg.1⟩
            · exact hg.2 p hp
          · rw [e, hs]
            rcases hc with h | ⟨q, h⟩ | ⟨q, hq, h⟩
            · left; rw [← h]
            · right; left; exact ⟨q, by rw [h]; simp⟩
            · right; right; exact ⟨q, hq, by rw [h]; simp⟩
        · exact ⟨⟨[], []⟩, ⟨⟨by simp, by simp⟩, by simp⟩, Or.inr (Or.inr ⟨s, h3, by simp [FmtStr.written]⟩)⟩
      · obtain ⟨⟨head, rest⟩, hg, hc⟩ := ih s.length (by subst hn; simp) s rfl
        refine ⟨⟨c :: head, rest⟩, ⟨⟨?_, ?_⟩, hg.2⟩, ?_⟩
        · simp only [List.mem_cons, not_or]; exact ⟨fun h => h2 h.symm, hg.1.1⟩
        · simp only [List.mem_cons, not_or]; exact ⟨fun h => h1 h.symm, hg.1.2⟩
        · have e : (⟨c :: head, rest⟩ : FmtStr).written = c :: (⟨head, rest⟩ : FmtStr).written := by simp [FmtStr.written]
          rw [e]
          rcases hc with h | ⟨q, h⟩ | ⟨q, hq, h⟩
          · left; rw [← h]
          · right; left; exact ⟨q, by rw [h]; simp⟩
          · right; right; exact ⟨q, hq, by rw [h]; simp⟩

/-- **C82**, memory safety: `format2` never reads outside of the format string. -/
theorem C82_no_overrun (s : List Char) (args : List (List Char)) : format2 s args ≠ .ub := by
  obtain ⟨f, hf, rfl | ⟨r, rfl⟩ | ⟨r, hr, rfl⟩⟩ := fmt_cases s
  · obtain ⟨h1, h2, h3⟩ := C82_format_partial f hf args
    rcases lt_trichotomy args.length f.rest.length with h | h | h
    · rw [h1 h]; exact fun h => nomatch h
    · rw [h3 h]; exact fun h => nomatch h
    · rw [h2 h]; exact fun h => nomatch h
  · rw [C82_stray f hf]
    split <;> exact fun h => nomatch h
  · have h := fmtLoop_good f hf ('{' :: r) args [] 0 []
    simp only [List.nil_append, List.length_nil, Nat.sub_zero, Nat.zero_add, List.drop_zero] at h
    rw [fmtLoop_open r hr] at h
    rw [show format2 _ args = _ from h]
    split
    · split
      · exact fun h => nomatch h
      · split <;> exact fun h => nomatch h
    · exact fun h => nomatch h

/-! ### The format strings of the library -/

/-- number of placeholders of a string whose braces are paired (`b`: inside of a placeholder) -/
def holes : Bool → List Char → Option Nat
  | false, [] => some 0
  | true, [] => none
  | false, c :: s => if c = '{' then (holes true s).map (· + 1) else if c = '}' then none else holes false s
  | true, c :: s => if c = '}' then holes false s else holes true s

theorem holes_spec (s : List Char) :
    (∀ n, holes false s = some n → ∃ f : FmtStr, f.Good ∧ s = f.written ∧ f.rest.length = n) ∧
    (∀ n, holes true s = some n → ∃ (sp : List Char) (f : FmtStr), '}' ∉ sp ∧ f.Good ∧ s = sp ++ '}' :: f.written ∧ f.rest.length = n) := by
  induction s with
  | nil =>
    refine ⟨fun n h => ?_, fun n h => by simp [holes] at h⟩
    simp only [holes, Option.some.injEq] at h
    exact ⟨⟨[], []⟩, ⟨⟨by simp, by simp⟩, by simp⟩, rfl, h⟩
  | cons c s ih =>
    refine ⟨fun n h => ?_, fun n h => ?_⟩
    · unfold holes at h
      split at h
      · next hc =>
        subst hc
        rw [Option.map_eq_some_iff] at h
        obtain ⟨k, hk, rfl⟩ := h
        obtain ⟨sp, ⟨head, rest⟩, h1, h2, h3, h4⟩ := ih.2 k hk
        refine ⟨⟨[], (sp, head) :: rest⟩, ⟨⟨by simp, by simp⟩, ?_⟩, by rw [h3]; simp [FmtStr.written], by simpa using h4⟩
        intro p hp
        rcases List.mem_cons.mp hp with rfl | hp
        · exact ⟨h1, h2.1⟩
        · exact h2.2 p hp
      · split at h
        · cases h
        · next h1 h2 =>
          obtain ⟨⟨head, rest⟩, hg, rfl, h4⟩ := ih.1 n h
          refine ⟨⟨c :: head, rest⟩, ⟨⟨?_, ?_⟩, hg.2⟩, by simp [FmtStr.written], h4⟩
          · simp only [List.mem_cons, not_or]; exact ⟨fun h => h1 h.symm, hg.1.1⟩
          · simp only [List.mem_cons, not_or]; exact ⟨fun h => h2 h.symm, hg.1.2⟩
    · unfold holes at h
      split at h
      · next hc =>
        subst hc
        obtain ⟨f, h1, h2, h3⟩ := ih.1 n h
        exact ⟨[], f, by simp, h1, by rw [h2]; simp, h3⟩
      · next hc =>
        obtain ⟨sp, f, h1, h2, h3, h4⟩ := ih.2 n h
        refine ⟨c :: sp, f, ?_, h2, by rw [h3]; simp, h4⟩
        simp only [List.mem_cons, not_or]; exact ⟨fun h => hc h.symm, h1⟩

theorem libFormats_holes : ∀ p ∈ libFormats, holes false p.2.1.toList = some p.2.2 := by decide +kernel

/-- **C82**, the log of the library: no call of the library throws, whatever the values printed, and all of them are printed. -/
theorem C82_library (p : String × String × Nat) (hp : p ∈ libFormats) (args : List (List Char)) (ha : args.length = p.2.2) :
    ∃ f : FmtStr, f.Good ∧ f.written = p.2.1.toList ∧ f.rest.length = args.length ∧ format2 p.2.1.toList args = .ok (f.filled args) := by
  obtain ⟨f, h1, h2, h3⟩ := (holes_spec _).1 _ (libFormats_holes p hp)
  refine ⟨f, h1, h2.symm, by omega, ?_⟩
  rw [h2]
  exact (C82_format_partial f h1 args).2.2 (by omega)

/-- a format string with two placeholders, filled; a stray and an unclosed brace -/
example : (⟨"in:".toList, [(":.2f".toList, "% (".toList), ([], ") ".toList)]⟩ : FmtStr).Good ∧
    (⟨"in:".toList, [(":.2f".toList, "% (".toList), ([], ") ".toList)]⟩ : FmtStr).written = "in:{:.2f}% ({}) ".toList ∧
    format2 "in:{:.2f}% ({}) ".toList ["99.50".toList, "7".toList] = .ok "in:99.50% (7) ".toList ∧
    format2 "a}b".toList [] = .invalid ∧ format2 "a{b".toList ["1".toList] = .ok "a1".toList := by
  have h : (⟨"in:".toList, [(":.2f".toList, "% (".toList), ([], ") ".toList)]⟩ : FmtStr).Good := by
    refine ⟨⟨by decide, by decide⟩, fun p hp => ?_⟩
    simp only [List.mem_cons, List.not_mem_nil, or_false] at hp
    rcases hp with rfl | rfl <;> exact ⟨by decide, by decide, by decide⟩
  have hw : (⟨"in:".toList, [(":.2f".toList, "% (".toList), ([], ") ".toList)]⟩ : FmtStr).written = "in:{:.2f}% ({}) ".toList := by decide
  refine ⟨h, hw, ?_, ?_, ?_⟩
  · rw [← hw, (C82_format_partial _ h _).2.2 rfl]
    decide
  · exact C82_stray ⟨['a'], []⟩ ⟨⟨by decide, by decide⟩, by simp⟩ ['b'] []
  · exact C82_unclosed ⟨['a'], []⟩ ⟨⟨by decide, by decide⟩, by simp⟩ ['b'] (by decide) [] ['1'] rfl

end Verif
