import Verif.Model.Printing
import Mathlib.Data.Fin.VecNotation
import Mathlib.Tactic.Ring
import Mathlib.Tactic.NormNum
/-!
# C134: printed containers and matrices can be read back

The reader splits the text at newlines and at spaces. It knows nothing of the loops that print.
-/

namespace Verif.Print

/-- the parts of a text between the occurrences of a character -/
def fields (c : Char) : Str → List Str
  | [] => [[]]
  | a :: s =>
    if a = c then [] :: fields c s
    else match fields c s with
      | [] => [[a]]
      | w :: ws => (a :: w) :: ws

/-- what `>>` reads one after the other from one line: the parts between spaces -/
def words (s : Str) : List Str := (fields ' ' s).filter (· ≠ [])

/-- the rows of words of a text -/
def table (s : Str) : List (List Str) := (fields '\n' s).map words

/-- texts with a separator between them -/
def join (c : Char) : List Str → Str
  | [] => []
  | [a] => a
  | a :: b :: l => a ++ c :: join c (b :: l)

theorem fields_cut (c : Char) (a s : Str) (h : c ∉ a) : fields c (a ++ c :: s) = a :: fields c s := by
  induction a with
  | nil => simp [fields]
  | cons x a ih =>
    rw [List.mem_cons, not_or] at h
    rw [List.cons_append, fields, if_neg (Ne.symm h.1), ih h.2]

theorem fields_one (c : Char) (a : Str) (h : c ∉ a) : fields c a = [a] := by
  induction a with
  | nil => rfl
  | cons x a ih =>
    rw [List.mem_cons, not_or] at h
    rw [fields, if_neg (Ne.symm h.1), ih h.2]

theorem fields_join (c : Char) (l : List Str) (hl : l ≠ []) (h : ∀ a ∈ l, c ∉ a) : fields c (join c l) = l := by
  induction l with
  | nil => exact absurd rfl hl
  | cons a l ih =>
    cases l with
    | nil => exact fields_one c a (h a (by simp))
    | cons b l =>
      rw [join, fields_cut c _ _ (h a (by simp)), ih (by simp) (fun x hx => h x (List.mem_cons_of_mem _ hx))]

theorem join_cons (c : Char) (a : Str) (l : List Str) : join c (a :: l) = a ++ l.flatMap (c :: ·) := by
  induction l generalizing a with
  | nil => simp [join]
  | cons b l ih => rw [join, ih]; simp

theorem mem_join (c d : Char) (l : List Str) (h : d ∈ join c l) : d = c ∨ ∃ a ∈ l, d ∈ a := by
  induction l with
  | nil => cases h
  | cons a l ih =>
    cases l with
    | nil => exact .inr ⟨a, by simp, h⟩
    | cons b l =>
      rw [join, List.mem_append, List.mem_cons] at h
      rcases h with h | h | h
      · exact .inr ⟨a, by simp, h⟩
      · exact .inl h
      · rcases ih h with h | ⟨x, hx, hd⟩
        · exact .inl h
        · exact .inr ⟨x, List.mem_cons_of_mem _ hx, hd⟩

/-- a loop that writes the separator after all but the last element -/
theorem fold_after (c : Char) {n : Nat} (v : Fin n → Str) (os : Str) :
    (List.finRange n).foldl (fun os i => let os := os ++ v i; if i.val + 1 < n then os ++ [c] else os) os = os ++ join c (List.ofFn v) := by
  induction n generalizing os with
  | zero => simp [join]
  | succ n ih =>
    rw [List.finRange_succ, List.foldl_cons, List.foldl_map]
    have e : (fun (os : Str) (i : Fin n) => (fun (os : Str) (i : Fin (n + 1)) => let os := os ++ v i; if i.val + 1 < n + 1 then os ++ [c] else os) os i.succ)
        = fun os i => let os := os ++ v i.succ; if i.val + 1 < n then os ++ [c] else os := by
      funext os i
      simp [Fin.val_succ]
    have h := ih (fun i => v i.succ)
    refine (congrArg (fun f => (List.finRange n).foldl f _) e).trans ((h _).trans ?_)
    rw [List.ofFn_succ]
    cases n with
    | zero => simp [join]
    | succ n => rw [List.ofFn_succ (f := fun i => v i.succ), join]; simp

/-- a loop that writes the separator before all but the first element -/
theorem fold_before (c : Char) {n : Nat} (v : Fin n → Str) :
    (List.finRange n).foldl (fun os j => (if 0 < j.val then os ++ [c] else os) ++ v j) [] = join c (List.ofFn v) := by
  cases n with
  | zero => rfl
  | succ n =>
    rw [List.finRange_succ, List.foldl_cons, List.foldl_map, List.ofFn_succ, join_cons]
    have e : ∀ (k : Nat) (u : Fin k → Str) (os : Str), (List.finRange k).foldl (fun os j => os ++ [c] ++ u j) os = os ++ (List.ofFn u).flatMap (c :: ·) := by
      intro k
      induction k with
      | zero => intro u os; simp
      | succ k ih =>
        intro u os
        rw [List.finRange_succ, List.foldl_cons, List.foldl_map, ih (fun i => u i.succ), List.ofFn_succ]
        simp
    have h := e n (fun i => v i.succ) (v 0)
    simpa using h

theorem streamSeq_eq {n : Nat} (v : Fin n → Str) : streamSeq v = join ' ' (List.ofFn v) := by
  have h := fold_after ' ' v []
  rwa [List.nil_append] at h

theorem rowText_eq {c : Nat} (w : Nat) (row : Fin c → Str) : rowText w row = join ' ' (List.ofFn fun j => pad w (row j)) :=
  fold_before ' ' fun j => pad w (row j)

theorem printMatrix_eq {r c : Nat} (m : Fin r → Fin c → Str) (h : r * c ≠ 0) :
    printMatrix m = join '\n' (List.ofFn fun i => rowText (width m) (m i)) := by
  rw [printMatrix, if_neg h]
  have h := fold_after '\n' (fun i => rowText (width m) (m i)) []
  rwa [List.nil_append] at h

/-! ### the width -/

theorem fold_max {α : Type} (l : List α) (g : α → Nat) (w : Nat) :
    w ≤ l.foldl (fun w a => max w (g a)) w ∧ (∀ a ∈ l, g a ≤ l.foldl (fun w a => max w (g a)) w)
      ∧ (l.foldl (fun w a => max w (g a)) w = w ∨ ∃ a ∈ l, l.foldl (fun w a => max w (g a)) w = g a) := by
  induction l generalizing w with
  | nil => simp
  | cons a l ih =>
    rw [List.foldl_cons]
    obtain ⟨h1, h2, h3⟩ := ih (max w (g a))
    refine ⟨le_trans (le_max_left _ _) h1, fun b hb => ?_, ?_⟩
    · rcases List.mem_cons.1 hb with rfl | hb
      · exact le_trans (le_max_right _ _) h1
      · exact h2 b hb
    · rcases h3 with h3 | ⟨b, hb, h3⟩
      · rcases le_total w (g a) with h | h
        · exact .inr ⟨a, by simp, by rw [h3, max_eq_right h]⟩
        · exact .inl (by rw [h3, max_eq_left h])
      · exact .inr ⟨b, List.mem_cons_of_mem _ hb, h3⟩

theorem width_spec {r c : Nat} (m : Fin r → Fin c → Str) :
    (∀ i j, (m i j).length ≤ width m) ∧ (width m = 0 ∨ ∃ i j, width m = (m i j).length) := by
  have key : ∀ (l : List (Fin c)) (w : Nat),
      w ≤ l.foldl (fun w j => (List.finRange r).foldl (fun w i => max w (m i j).length) w) w
      ∧ (∀ j ∈ l, ∀ i, (m i j).length ≤ l.foldl (fun w j => (List.finRange r).foldl (fun w i => max w (m i j).length) w) w)
      ∧ (l.foldl (fun w j => (List.finRange r).foldl (fun w i => max w (m i j).length) w) w = w
        ∨ ∃ i j, l.foldl (fun w j => (List.finRange r).foldl (fun w i => max w (m i j).length) w) w = (m i j).length) := by
    intro l
    induction l with
    | nil => intro w; simp
    | cons a l ih =>
      intro w
      rw [List.foldl_cons]
      obtain ⟨g1, g2, g3⟩ := fold_max (List.finRange r) (fun i => (m i a).length) w
      obtain ⟨h1, h2, h3⟩ := ih ((List.finRange r).foldl (fun w i => max w (m i a).length) w)
      refine ⟨g1.trans h1, fun j hj i => ?_, ?_⟩
      · rcases List.mem_cons.1 hj with rfl | hj
        · exact (g2 i (List.mem_finRange i)).trans h1
        · exact h2 j hj i
      · rcases h3 with h3 | h3
        · rcases g3 with g3 | ⟨i, -, g3⟩
          · exact .inl (h3.trans g3)
          · exact .inr ⟨i, a, h3.trans g3⟩
        · exact .inr h3
  obtain ⟨-, h2, h3⟩ := key (List.finRange c) 0
  exact ⟨fun i j => h2 j (List.mem_finRange j) i, h3⟩

/-! ### rows -/

theorem length_join (l : List Str) (c : Char) (w : Nat) (hl : l ≠ []) (h : ∀ a ∈ l, a.length = w) : (join c l).length + 1 = l.length * (w + 1) := by
  induction l with
  | nil => exact absurd rfl hl
  | cons a l ih =>
    cases l with
    | nil => simp [join, h a]
    | cons b l =>
      have := ih (by simp) (fun x hx => h x (List.mem_cons_of_mem _ hx))
      rw [join, List.length_append, List.length_cons, h a (by simp), this, List.length_cons (a := a), List.length_cons]
      ring

theorem length_pad (w : Nat) (a : Str) (h : a.length ≤ w) : (pad w a).length = w := by
  simp [pad]; omega

theorem fields_spaces (k : Nat) (s : Str) : fields ' ' (List.replicate k ' ' ++ s) = List.replicate k [] ++ fields ' ' s := by
  induction k with
  | zero => rfl
  | succ k ih => rw [List.replicate_succ, List.cons_append, fields, if_pos rfl, ih]; rfl

theorem words_spaces (k : Nat) (s : Str) : words (List.replicate k ' ' ++ s) = words s := by
  unfold words
  rw [fields_spaces, List.filter_append]
  simp

theorem words_row (w : Nat) (l : List Str) (h : ∀ a ∈ l, a ≠ [] ∧ ' ' ∉ a) : words (join ' ' (l.map (pad w))) = l := by
  induction l with
  | nil => rfl
  | cons a l ih =>
    obtain ⟨ha, hs⟩ := h a (by simp)
    cases l with
    | nil =>
      show words (pad w a) = [a]
      rw [pad, words_spaces, words, fields_one _ _ hs]
      simp [ha]
    | cons b l =>
      have h1 := ih (fun x hx => h x (List.mem_cons_of_mem _ hx))
      show words (pad w a ++ ' ' :: join ' ' ((b :: l).map (pad w))) = _
      rw [pad, List.append_assoc, words_spaces, words, fields_cut _ _ _ hs, List.filter_cons_of_pos (by simpa using ha)]
      exact congrArg (a :: ·) h1

theorem row_words {c : Nat} (w : Nat) (row : Fin c → Str) (h : ∀ j, row j ≠ [] ∧ ' ' ∉ row j) : words (rowText w row) = List.ofFn row := by
  rw [rowText_eq]
  have e : (List.ofFn fun j => pad w (row j)) = (List.ofFn row).map (pad w) := by rw [List.map_ofFn]; rfl
  rw [e, words_row]
  intro a ha
  obtain ⟨j, rfl⟩ := List.mem_ofFn.1 ha
  exact h j

theorem row_line {c : Nat} (w : Nat) (row : Fin c → Str) (h : ∀ j, '\n' ∉ row j) : '\n' ∉ rowText w row := by
  rw [rowText_eq]
  intro hm
  rcases mem_join _ _ _ hm with h1 | ⟨a, ha, h1⟩
  · exact absurd h1 (by decide)
  · obtain ⟨j, rfl⟩ := List.mem_ofFn.1 ha
    rcases List.mem_append.1 h1 with h1 | h1
    · exact absurd (List.eq_of_mem_replicate h1) (by decide)
    · exact h j h1

/-! ### the theorems -/

/-- an entry that can be read back: not empty, no spaces or newlines -/
def Word (a : Str) : Prop := a ≠ [] ∧ ' ' ∉ a ∧ '\n' ∉ a

instance (a : Str) : Decidable (Word a) := inferInstanceAs (Decidable (_ ∧ _))

/-- C134: the elements of a printed `std::array` or `std::vector` are separated by exactly one space, with none before the first and after the last: splitting the text at the spaces gives the elements, if none
of them contains a space. Two vectors of words with the same text are equal, also if their lengths are not known. -/
theorem C134_sequence {n : Nat} (v : Fin n → Str) (h : ∀ i, ' ' ∉ v i) :
    (0 < n → fields ' ' (streamSeq v) = List.ofFn v) ∧ (n = 0 → streamSeq v = []) ∧
      ((∀ i, v i ≠ []) → words (streamSeq v) = List.ofFn v) := by
  have h1 : 0 < n → fields ' ' (streamSeq v) = List.ofFn v := by
    intro hn
    rw [streamSeq_eq]
    refine fields_join _ _ ?_ ?_
    · rw [Ne, List.ofFn_eq_nil_iff]; omega
    · intro a ha
      obtain ⟨j, rfl⟩ := List.mem_ofFn.1 ha
      exact h j
  have h2 : n = 0 → streamSeq v = [] := by rintro rfl; rfl
  refine ⟨h1, h2, fun h3 => ?_⟩
  rcases Nat.eq_zero_or_pos n with h0 | h0
  · rw [h2 h0]
    subst h0
    rfl
  · rw [words, h1 h0, List.filter_eq_self]
    intro a ha
    obtain ⟨j, rfl⟩ := List.mem_ofFn.1 ha
    simpa using h3 j

/-- C134: a printed matrix that is not empty has one line per row, and the words of a line are the entries of the row. The columns are aligned: all lines have the length of `c` columns as wide as the longest
entry, with one space between them. -/
theorem C134_matrix {r c : Nat} (m : Fin r → Fin c → Str) (hr : 0 < r) (hc : 0 < c) (h : ∀ i j, Word (m i j)) :
    table (printMatrix m) = List.ofFn (fun i => List.ofFn (m i)) ∧
      ∃ w, (∀ i j, (m i j).length ≤ w) ∧ (∃ i j, w = (m i j).length) ∧ ∀ line ∈ fields '\n' (printMatrix m), line.length + 1 = c * (w + 1) := by
  have hl : fields '\n' (printMatrix m) = List.ofFn fun i => rowText (width m) (m i) := by
    rw [printMatrix_eq m (Nat.mul_pos hr hc).ne']
    refine fields_join _ _ ?_ ?_
    · rw [Ne, List.ofFn_eq_nil_iff]; omega
    · intro a ha
      obtain ⟨i, rfl⟩ := List.mem_ofFn.1 ha
      exact row_line _ _ fun j => (h i j).2.2
  obtain ⟨w1, w2⟩ := width_spec m
  refine ⟨?_, width m, w1, ?_, ?_⟩
  · rw [table, hl, List.map_ofFn]
    congr 1
    funext i
    exact row_words _ _ fun j => ⟨(h i j).1, (h i j).2.1⟩
  · rcases w2 with w2 | w2
    · have := w1 ⟨0, hr⟩ ⟨0, hc⟩
      exact ⟨⟨0, hr⟩, ⟨0, hc⟩, by omega⟩
    · exact w2
  · intro line hm
    rw [hl] at hm
    obtain ⟨i, rfl⟩ := List.mem_ofFn.1 hm
    rw [rowText_eq, length_join _ _ (width m), List.length_ofFn]
    · rw [Ne, List.ofFn_eq_nil_iff]; omega
    · intro a ha
      obtain ⟨j, rfl⟩ := List.mem_ofFn.1 ha
      exact length_pad _ _ (w1 i j)

/-- C134: the formatter prints a column vector on one line, its words are the entries (also for the empty vector), and other matrices row by row. So two matrices of the same size with the same text have the
same entries. -/
theorem C134_formatter {r c : Nat} (m : Fin r → Fin c → Str) (h : ∀ i j, Word (m i j)) :
    (∀ e : c = 1, '\n' ∉ formatDense m ∧ words (formatDense m) = List.ofFn fun i => m i ⟨0, by omega⟩) ∧
      (0 < r → 1 < c → table (formatDense m) = List.ofFn fun i => List.ofFn (m i)) ∧
      ∀ m' : Fin r → Fin c → Str, (∀ i j, Word (m' i j)) → formatDense m = formatDense m' → m = m' := by
  have hcol : ∀ (e : c = 1) (m : Fin r → Fin c → Str), (∀ i j, Word (m i j)) →
      '\n' ∉ formatDense m ∧ words (formatDense m) = List.ofFn fun i => m i ⟨0, by omega⟩ := by
    intro e m h
    subst e
    rw [formatDense, if_pos rfl]
    rcases Nat.eq_zero_or_pos r with h0 | h0
    · subst h0
      exact ⟨List.not_mem_nil, rfl⟩
    · rw [printMatrix_eq _ (by omega)]
      have e : (List.ofFn fun i : Fin 1 => rowText (width fun j i => m i j) (fun j => m j i))
          = [rowText (width fun j i => m i j) (fun j => m j 0)] := by simp [List.ofFn_succ]
      rw [e]
      exact ⟨row_line _ _ fun j => (h j 0).2.2, row_words _ _ fun j => ⟨(h j 0).1, (h j 0).2.1⟩⟩
  have hmat : ∀ (m : Fin r → Fin c → Str), (∀ i j, Word (m i j)) → 0 < r → 1 < c → table (formatDense m) = List.ofFn fun i => List.ofFn (m i) := by
    intro m h hr hc
    rw [formatDense, if_neg (by omega)]
    exact (C134_matrix m hr (by omega) h).1
  refine ⟨fun e => hcol e m h, hmat m h, fun m' h' he => ?_⟩
  rcases Nat.eq_zero_or_pos r with h0 | h0
  · subst h0
    funext i
    exact i.elim0
  · rcases lt_trichotomy c 1 with hc | hc | hc
    · have hc : c = 0 := by omega
      subst hc
      funext i j
      exact j.elim0
    · have h1 := (hcol hc m h).2
      rw [he, (hcol hc m' h').2] at h1
      subst hc
      funext i j
      have hj : j = 0 := Subsingleton.elim _ _
      subst hj
      exact (congrFun (List.ofFn_injective h1) i).symm
    · have h1 := hmat m h h0 hc
      rw [he, hmat m' h' h0 hc] at h1
      funext i
      exact (List.ofFn_injective (congrFun (List.ofFn_injective h1) i)).symm

/-- the full claim about the log: whatever the entries, the step is on one line and can be read back -/
def LogsStep (fmt : {r c : Nat} → (Fin r → Fin c → Str) → Str) : Prop :=
  ∀ (n : Nat) (dx : Fin n → Str), (∀ i, Word (dx i)) → '\n' ∉ logStep fmt dx

/-- C134 (C++20): the step is printed on one line of the log. Missing: C++17, see `C134_log_cxx17`. -/
theorem C134_log_partial : LogsStep formatDense := by
  intro n dx h hm
  rw [logStep, List.mem_append, List.mem_append] at hm
  rcases hm with (hm | hm) | hm
  · revert hm; decide
  · exact ((C134_formatter (fun i (_ : Fin 1) => dx i) fun i _ => h i).1 rfl).1 hm
  · revert hm; decide

/-- **C134 is violated (log.h:72-77, formatters.h:15)**: in C++17 builds without fmt every step with more than one entry is printed over as many lines as it has entries, and so is the line of the log. -/
theorem C134_log_cxx17 : (∀ (n : Nat) (dx : Fin n → Str), 0 < n → (∀ i, Word (dx i)) → (fields '\n' (logStep formatDense17 dx)).length = n) ∧ ¬ LogsStep formatDense17 := by
  have hcount : ∀ s, (fields '\n' s).length = s.count '\n' + 1 := by
    intro s
    induction s with
    | nil => rfl
    | cons a s ih =>
      rw [fields]
      split
      next e => subst e; simp [ih]
      next e =>
        rw [List.count_cons_of_ne e]
        cases hf : fields '\n' s with
        | nil => rw [hf] at ih; simp at ih
        | cons w ws => rw [hf] at ih; exact ih
  have key : ∀ (n : Nat) (dx : Fin n → Str), 0 < n → (∀ i, Word (dx i)) → (fields '\n' (logStep formatDense17 dx)).length = n := by
    intro n dx hn h
    have h1 := congrArg List.length (C134_matrix (fun i (_ : Fin 1) => dx i) hn Nat.one_pos fun i _ => h i).1
    rw [table, List.length_map, List.length_ofFn, hcount] at h1
    rw [hcount, logStep, formatDense17, List.count_append, List.count_append]
    have e1 : List.count '\n' "δx:[".toList = 0 := by decide
    have e2 : List.count '\n' "] ".toList = 0 := by decide
    omega
  refine ⟨key, fun h => ?_⟩
  have h2 := key 2 (fun _ => ['1']) (by decide) (by decide)
  rw [hcount] at h2
  have h3 := List.count_eq_zero.2 (h 2 (fun _ => ['1']) (by decide))
  exact absurd (h2.symm.trans (congrArg (· + 1) h3)) (by decide)

/-- the texts of the elements of a vector of vectors -/
def streamNested (v : List (List Str)) : Str := streamSeq fun i : Fin v.length => streamSeq (v.get i).get

/-- **C134 is violated (formatters.h:76-82)**: vectors of vectors print the same separator on both levels; `{{1}, {2}}` and `{{1, 2}}` have the same text, and so have `{}`, `{{}}`. Of a vector of arrays of
the same size `N > 0` (all that the fixed-size containers allow) nothing is lost. -/
theorem C134_nested :
    streamNested [[['1']], [['2']]] = streamNested [[['1'], ['2']]] ∧ streamNested [] = streamNested [[]] ∧
      ∀ (n k N : Nat) (v : Fin n → Fin N → Str) (v' : Fin k → Fin N → Str), 0 < N → (∀ i j, Word (v i j)) → (∀ i j, Word (v' i j)) →
        streamSeq (fun i => streamSeq (v i)) = streamSeq (fun i => streamSeq (v' i)) → List.ofFn (fun i => List.ofFn (v i)) = List.ofFn fun i => List.ofFn (v' i) := by
  refine ⟨by decide, by decide, ?_⟩
  have wapp : ∀ a s, words (a ++ ' ' :: s) = words a ++ words s := by
    intro a s
    have : ∀ a, fields ' ' (a ++ ' ' :: s) = fields ' ' a ++ fields ' ' s := by
      intro a
      induction a with
      | nil => rfl
      | cons x a ih =>
        rw [List.cons_append, fields, fields, ih]
        split
        · rfl
        · cases hf : fields ' ' a with
          | nil =>
            exfalso
            revert hf
            cases a with
            | nil => simp [fields]
            | cons y a =>
              rw [fields]
              split
              · simp
              · split <;> simp
          | cons w ws => rfl
    rw [words, this, List.filter_append]; rfl
  have flat : ∀ (l : List Str), words (join ' ' l) = l.flatMap words := by
    intro l
    induction l with
    | nil => rfl
    | cons a l ih =>
      cases l with
      | nil => simp [join]
      | cons b l => rw [join, wapp, ih]; rfl
  have val : ∀ (n N : Nat) (v : Fin n → Fin N → Str), (∀ i j, Word (v i j)) →
      words (streamSeq (fun i => streamSeq (v i))) = (List.ofFn fun i => List.ofFn (v i)).flatten := by
    intro n N v h
    rw [streamSeq_eq, flat, List.flatMap_def, List.map_ofFn]
    congr 2
    funext i
    exact (C134_sequence (v i) fun j => (h i j).2.1).2.2 fun j => (h i j).1
  intro n k N v v' hN h h' he
  have h1 := val n N v h
  rw [he, val k N v' h'] at h1
  have cut : ∀ (a b : List (List Str)), (∀ x ∈ a, x.length = N) → (∀ x ∈ b, x.length = N) → a.flatten = b.flatten → a = b := by
    intro a
    induction a with
    | nil =>
      intro b _ hb hf
      cases b with
      | nil => rfl
      | cons y b =>
        have h2 := congrArg List.length hf
        simp [hb y (by simp)] at h2
        omega
    | cons x a ih =>
      intro b ha hb hf
      cases b with
      | nil =>
        have h2 := congrArg List.length hf
        simp [ha x (by simp)] at h2
        omega
      | cons y b =>
        rw [List.flatten_cons, List.flatten_cons] at hf
        obtain ⟨e1, e2⟩ := List.append_inj hf ((ha x (by simp)).trans (hb y (by simp)).symm)
        rw [e1, ih b (fun z hz => ha z (List.mem_cons_of_mem _ hz)) (fun z hz => hb z (List.mem_cons_of_mem _ hz)) e2]
  refine cut _ _ ?_ ?_ h1.symm
  · intro x hx
    obtain ⟨i, rfl⟩ := List.mem_ofFn.1 hx
    exact List.length_ofFn
  · intro x hx
    obtain ⟨i, rfl⟩ := List.mem_ofFn.1 hx
    exact List.length_ofFn

/-- the number at the start of a text -/
def leadingNumber (s : Str) : Str := s.takeWhile Char.isDigit

/-- **C134 is violated (log.h:90-94)**: `TINYOPT_LOG_MAT` writes nothing between the size and the entries of a column vector. The number of columns that is read in the text of a column vector of whole
numbers, the first of them the longest, is not `1` but `1` followed by the first entry: `(1, 2, 3)` is printed as `v:3x11 2 3`. -/
theorem C134_log_mat :
    logMat formatDense ['v'] (fun i (_ : Fin 1) => ![['1'], ['2'], ['3']] i) = "v:3x11 2 3".toList ∧
      ∀ (n : Nat) (v : Fin (n + 1) → Str), (∀ i, v i ≠ [] ∧ ∀ a ∈ v i, a.isDigit = true) → (∀ i, (v i).length ≤ (v 0).length) → ∀ name : Str,
        ∃ pre rest : Str, logMat formatDense name (fun i (_ : Fin 1) => v i) = name ++ [':'] ++ pre ++ ['x'] ++ rest ∧ pre = (Nat.repr (n + 1)).toList ∧ leadingNumber rest = '1' :: v 0 := by
  refine ⟨by decide, fun n v hv hw name => ?_⟩
  refine ⟨_, (Nat.repr 1).toList ++ [] ++ formatDense (fun i (_ : Fin 1) => v i), by simp [logMat], rfl, ?_⟩
  have h1 : (Nat.repr 1).toList = ['1'] := by decide
  rw [h1, List.append_nil, List.singleton_append, leadingNumber, List.takeWhile_cons_of_pos (by decide)]
  congr 1
  rw [formatDense, if_pos rfl, printMatrix_eq _ (by omega)]
  obtain ⟨w1, w2⟩ := width_spec fun (j : Fin 1) (i : Fin (n + 1)) => v i
  have hwid : (width fun (j : Fin 1) (i : Fin (n + 1)) => v i) = (v 0).length := by
    refine le_antisymm ?_ (w1 0 0)
    rcases w2 with w2 | ⟨i, j, w2⟩
    · rw [w2]; exact Nat.zero_le _
    · rw [w2]; exact hw j
  rw [hwid]
  have e : (List.ofFn fun i : Fin 1 => rowText (v 0).length fun j => v j) = [rowText (v 0).length fun j => v j] := by simp [List.ofFn_succ]
  rw [e]
  show List.takeWhile Char.isDigit (rowText (v 0).length fun j => v j) = v 0
  rw [rowText_eq, List.ofFn_succ, join_cons]
  have e0 : pad (v 0).length (v 0) = v 0 := by simp [pad]
  rw [e0]
  cases hl : (List.ofFn fun i : Fin n => pad (v 0).length (v i.succ)) with
  | nil => rw [List.flatMap_nil, List.takeWhile_append_of_pos fun a ha => (hv 0).2 a ha]; simp
  | cons b l =>
    rw [List.flatMap_cons, List.cons_append, List.takeWhile_append_of_pos fun a ha => (hv 0).2 a ha, List.takeWhile_cons_of_neg (by decide), List.append_nil]

/-- a vector of three numbers -/
example : streamSeq ![['1'], ['2', '5'], ['3']] = "1 25 3".toList ∧ (∀ i, ' ' ∉ ![['1'], ['2', '5'], ['3']] i) := by decide

/-- a matrix with entries of different lengths -/
example : printMatrix ![![['1'], ['-', '2']], ![['1', '0'], ['3']]] = " 1 -2\n10  3".toList ∧ ∀ i j, Word ((![![['1'], ['-', '2']], ![['1', '0'], ['3']]] : Fin 2 → Fin 2 → Str) i j) := by decide

/-- the same step in the two builds -/
example : logStep formatDense ![['1'], ['2']] = "δx:[1 2] ".toList ∧ logStep formatDense17 ![['1'], ['2']] = "δx:[1\n2] ".toList := by decide

end Verif.Print
