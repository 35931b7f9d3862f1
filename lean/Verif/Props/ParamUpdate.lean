import Verif.Model.Params
import Verif.Num.Real
import Verif.Num.Ieee
import Verif.Examples.Toy
/-!
# C32: dimensions and update of nested parameters
-/

set_option linter.unusedSectionVars false

namespace Verif
open FloatOps

/-- the scalar coordinates of a parameter, in order -/
def PTy.flat {F : Type} : (t : PTy) → t.Val F → List F
  | scalar, (x : F) => [x]
  | mat _ _, (m : MatV F) => m.data
  | vec t, (l : List (t.Val F)) => l.flatMap t.flat
  | arr _ t, (l : List (t.Val F)) => l.flatMap t.flat
  | pair a b, (p : a.Val F × b.Val F) => a.flat p.1 ++ b.flat p.2

/-- two parameters (possibly of different scalar types) that differ at most in the values of their coordinates -/
def PTy.SameShape {F G : Type} : (t : PTy) → t.Val F → t.Val G → Prop
  | scalar, _, _ => True
  | mat _ _, (m : MatV F), (m' : MatV G) => m.rows = m'.rows ∧ m.cols = m'.cols
  | vec t, (l : List (t.Val F)), (l' : List (t.Val G)) => List.Forall₂ t.SameShape l l'
  | arr _ t, (l : List (t.Val F)), (l' : List (t.Val G)) => List.Forall₂ t.SameShape l l'
  | pair a b, (p : a.Val F × b.Val F), (p' : a.Val G × b.Val G) => a.SameShape p.1 p'.1 ∧ b.SameShape p.2 p'.2

section dims
variable {F : Type}

theorem flatMap_len {α β : Type} {l : List α} {f : α → List β} {n : Nat} (h : ∀ x ∈ l, (f x).length = n) : (l.flatMap f).length = l.length * n := by
  induction l with
  | nil => simp
  | cons x l ih =>
    rw [List.flatMap_cons, List.length_append, h x List.mem_cons_self, ih (fun y hy => h y (List.mem_cons_of_mem _ hy)), List.length_cons]
    ring

theorem flat_static : ∀ (t : PTy) (d : Nat), t.sDims = some d → ∀ x : t.Val F, t.WF x → (t.flat x).length = d
  | .scalar, d, h, x, _ => by
    cases h; rfl
  | .mat r c, d, h, x, hx => by
    obtain ⟨h1, h2, h3⟩ := hx
    cases r with
    | none => cases h
    | some r => cases c with
      | none => cases h
      | some c =>
        cases h
        show (MatV.data x).length = r * c
        rw [h1, h2 r rfl, h3 c rfl]
  | .vec t, d, h, x, hx => by cases h
  | .arr n t, d, h, x, hx => by
    simp only [PTy.sDims] at h
    cases ht : t.sDims with
    | none => rw [ht] at h; cases h
    | some e =>
      rw [ht] at h; cases h
      have := flatMap_len (l := x) (f := t.flat) (n := e) (fun y hy => flat_static t e ht y (hx.2 y hy))
      show (List.flatMap t.flat x).length = n * e
      rw [this, hx.1]
  | .pair a b, d, h, x, hx => by
    simp only [PTy.sDims] at h
    cases ha : a.sDims with
    | none => rw [ha] at h; cases h
    | some e =>
      cases hb : b.sDims with
      | none => rw [ha, hb] at h; cases h
      | some e' =>
        rw [ha, hb] at h; cases h
        show (a.flat x.1 ++ b.flat x.2).length = e + e'
        rw [List.length_append, flat_static a e ha x.1 hx.1, flat_static b e' hb x.2 hx.2]

theorem foldl_dims {α β : Type} (g : α → Nat) (f : α → List β) : ∀ (l : List α) (k : Nat), (∀ x ∈ l, g x = (f x).length) →
    l.foldl (fun d x => d + g x) k = k + (l.flatMap f).length
  | [], k, _ => by simp
  | x :: l, k, h => by
    rw [List.foldl_cons, foldl_dims g f l _ (fun y hy => h y (List.mem_cons_of_mem _ hy)), List.flatMap_cons, List.length_append, h x List.mem_cons_self]
    omega

/-- **C32**, dimensions: for every type and every value, `dims(x)` is the number of scalar coordinates. -/
theorem C32_dims : ∀ (t : PTy) (x : t.Val F), t.WF x → t.dims x = (t.flat x).length
  | .scalar, x, _ => rfl
  | .mat r c, x, hx => hx.1.symm
  | .vec t, x, hx => by
    show (if t = .scalar ∨ t.sDims = some 1 then List.length x else match t.sDims with
      | none => List.foldl (fun d x => d + t.dims x) 0 x
      | some d => List.length x * d) = (List.flatMap t.flat x).length
    split
    · rename_i h
      have h1 : t.sDims = some 1 := by rcases h with rfl | h <;> [rfl; exact h]
      rw [flatMap_len (n := 1) (fun y hy => flat_static t 1 h1 y (hx y hy))]; simp
    · split
      · rw [foldl_dims t.dims t.flat x 0 (fun y hy => C32_dims t y (hx y hy))]; simp
      · rename_i d hd
        rw [flatMap_len (n := d) (fun y hy => flat_static t d hd y (hx y hy))]
  | .arr n t, x, hx => by
    show (if t = .scalar ∨ t.sDims = some 1 then n else match t.sDims with
      | none => List.foldl (fun d x => d + t.dims x) 0 x
      | some d => List.length x * d) = (List.flatMap t.flat x).length
    split
    · rename_i h
      have h1 : t.sDims = some 1 := by rcases h with rfl | h <;> [rfl; exact h]
      rw [flatMap_len (n := 1) (fun y hy => flat_static t 1 h1 y (hx.2 y hy)), hx.1]; simp
    · split
      · rw [foldl_dims t.dims t.flat x 0 (fun y hy => C32_dims t y (hx.2 y hy))]; simp
      · rename_i d hd
        rw [flatMap_len (n := d) (fun y hy => flat_static t d hd y (hx.2 y hy))]
  | .pair a b, x, hx => by
    show a.dims x.1 + b.dims x.2 = (a.flat x.1 ++ b.flat x.2).length
    rw [List.length_append, C32_dims a x.1 hx.1, C32_dims b x.2 hx.2]

/-- **C32**, dimensions used by the optimizer -/
theorem C32_dynDims (t : PTy) (x : t.Val F) (hx : t.WF x) : t.dynDims x = (t.flat x).length := by
  unfold PTy.dynDims
  cases h : t.sDims with
  | none => exact C32_dims t x hx
  | some d => exact (flat_static t d h x hx).symm

end dims

/-- Types without a pair whose second type has static dimensions and without containers of
elements of dynamic dimensions. -/
def PTy.good : PTy → Bool
  | scalar => true
  | mat _ _ => true
  | vec t => t.good && t.sDims.isSome && (t == .scalar || !(t.sDims == some 1))
  | arr _ t => t.good && t.sDims.isSome && (t == .scalar || !(t.sDims == some 1))
  | pair a b => a.good && b.good && b.sDims.isNone

theorem good_compiles : ∀ t : PTy, t.good = true → t.compiles = true
  | .scalar, _ => rfl
  | .mat _ _, _ => rfl
  | .vec t, h => by
    simp only [PTy.good, Bool.and_eq_true] at h
    simp only [PTy.compiles, Bool.and_eq_true]
    exact ⟨good_compiles t h.1.1, h.2⟩
  | .arr _ t, h => by
    simp only [PTy.good, Bool.and_eq_true] at h
    simp only [PTy.compiles, Bool.and_eq_true]
    exact ⟨good_compiles t h.1.1, h.2⟩
  | .pair a b, h => by
    simp only [PTy.good, Bool.and_eq_true] at h
    simp only [PTy.compiles, Bool.and_eq_true, Bool.or_eq_true]
    exact ⟨⟨good_compiles a h.1.1, good_compiles b h.1.2⟩, Or.inl (by simpa using h.2)⟩

section upd
variable {F : Type} (op : F → F → F)

/-- the outcome the property asks for -/
def PTy.Adds (t : PTy) (x : t.Val F) (d : List F) (r : Res (t.Val F)) : Prop :=
  ∃ y, r = .ok y ∧ t.WF y ∧ t.SameShape x y ∧ t.flat y = List.zipWith op (t.flat x) d

theorem take_mul_succ {d : List F} {i n k : Nat} :
    (d.drop (i * n)).take ((k + 1) * n) = (d.drop (i * n)).take n ++ (d.drop ((i + 1) * n)).take (k * n) := by
  rw [show (k + 1) * n = n + k * n by ring, List.take_add, List.drop_drop, show i * n + n = (i + 1) * n by ring]

theorem zipWith_append_len {α β γ : Type} (f : α → β → γ) : ∀ (l₁ l₂ : List α) (m₁ m₂ : List β), l₁.length = m₁.length →
    List.zipWith f (l₁ ++ l₂) (m₁ ++ m₂) = List.zipWith f l₁ m₁ ++ List.zipWith f l₂ m₂
  | [], _, [], _, _ => rfl
  | a :: l₁, l₂, b :: m₁, m₂, h => by
    simp only [List.cons_append, List.zipWith_cons_cons]
    rw [zipWith_append_len f l₁ l₂ m₁ m₂ (by simpa using h)]
  | [], _, _ :: _, _, h => by cases h
  | _ :: _, _, [], _, h => by cases h

theorem updLoop_adds (t : PTy) (n : Nat) (d : List F) (f : Nat → t.Val F → Res (t.Val F)) :
    ∀ (l : List (t.Val F)) (i : Nat), (∀ x ∈ l, (t.flat x).length = n) → (i + l.length) * n ≤ d.length →
      (∀ x ∈ l, ∀ j, j * n + n ≤ d.length → t.Adds op x ((d.drop (j * n)).take n) (f j x)) →
      ∃ l', updLoop f i l = .ok l' ∧ (∀ y ∈ l', t.WF y) ∧ List.Forall₂ t.SameShape l l' ∧
        l'.flatMap t.flat = List.zipWith op (l.flatMap t.flat) ((d.drop (i * n)).take (l.length * n))
  | [], i, _, _, _ => ⟨[], rfl, by simp, List.Forall₂.nil, by simp⟩
  | x :: l, i, hn, hd, hf => by
    have hd' : (i + 1 + l.length) * n ≤ d.length := by
      have e : (i + (x :: l).length) * n = (i + 1 + l.length) * n := by rw [List.length_cons]; ring
      rwa [e] at hd
    have hin : i * n + n ≤ d.length := by
      have : (i + 1) * n ≤ (i + 1 + l.length) * n := Nat.mul_le_mul_right _ (by omega)
      have e : (i + 1) * n = i * n + n := by ring
      omega
    obtain ⟨y, y1, y2, y3, y4⟩ := hf x List.mem_cons_self i hin
    obtain ⟨l', l1, l2, l3, l4⟩ := updLoop_adds t n d f l (i + 1) (fun z hz => hn z (List.mem_cons_of_mem _ hz)) hd'
      (fun z hz => hf z (List.mem_cons_of_mem _ hz))
    refine ⟨y :: l', ?_, ?_, List.Forall₂.cons y3 l3, ?_⟩
    · simp only [updLoop, y1, l1, Res.bind_ok]
    · intro z hz
      rcases List.mem_cons.mp hz with rfl | hz
      · exact y2
      · exact l2 z hz
    · rw [List.flatMap_cons, List.flatMap_cons, y4, l4, List.length_cons, take_mul_succ, zipWith_append_len]
      rw [hn x List.mem_cons_self, List.length_take, List.length_drop]
      omega

/-- updates of elements of vectors and arrays with static dimensions -/
theorem elemUpd_adds (t : PTy) (hg : t = .scalar ∨ t.sDims ≠ some 1) {n : Nat} (hn : t.sDims = some n) (d : List F) (x : t.Val F)
    (ih : ∀ e : List F, e.length = n → t.Adds op x e (t.plusEqBy op x e)) (j : Nat) (hj : j * n + n ≤ d.length) :
    t.Adds op x ((d.drop (j * n)).take n) (PTy.plusEqBy.elemUpd op t (t.plusEqBy op) j x d) := by
  have key : ∀ e : List F, e = (d.drop (j * n)).take n → e.length = n := by
    rintro e rfl
    rw [List.length_take, List.length_drop]; omega
  have hseg : seg d (j * n) n = .ok ((d.drop (j * n)).take n) := if_pos hj
  cases t with
  | scalar =>
    cases hn
    have hlt : j < d.length := by omega
    have e1 : (d.drop (j * 1)).take 1 = [d[j]] := by
      rw [mul_one, List.drop_eq_getElem_cons hlt]; rfl
    rw [e1]
    refine ⟨op x d[j], ?_, trivial, trivial, rfl⟩
    unfold PTy.plusEqBy.elemUpd
    simp only [List.getElem?_eq_getElem hlt]
    rfl
  | mat r c =>
    have hne := hg.resolve_left (by simp)
    unfold PTy.plusEqBy.elemUpd
    simp only [if_neg hne]
    rw [hn]
    simp only [hseg, Res.bind_ok]
    exact ih _ (key _ rfl)
  | vec t =>
    have hne := hg.resolve_left (by simp)
    unfold PTy.plusEqBy.elemUpd
    simp only [if_neg hne]
    rw [hn]
    simp only [hseg, Res.bind_ok]
    exact ih _ (key _ rfl)
  | arr m t =>
    have hne := hg.resolve_left (by simp)
    unfold PTy.plusEqBy.elemUpd
    simp only [if_neg hne]
    rw [hn]
    simp only [hseg, Res.bind_ok]
    exact ih _ (key _ rfl)
  | pair a b =>
    have hne := hg.resolve_left (by simp)
    unfold PTy.plusEqBy.elemUpd
    simp only [if_neg hne]
    rw [hn]
    simp only [hseg, Res.bind_ok]
    exact ih _ (key _ rfl)

/-- the update with an arbitrary addition of scalars -/
theorem plusEqBy_adds : ∀ (t : PTy), t.good = true → ∀ (x : t.Val F), t.WF x → ∀ d : List F, d.length = t.dims x → t.Adds op x d (t.plusEqBy op x d)
  | .scalar, _, x, _, d, hd => by
    have h1 : d.length = 1 := hd
    obtain ⟨e, rfl⟩ := List.length_eq_one_iff.mp h1
    exact ⟨op x e, rfl, trivial, trivial, rfl⟩
  | .mat r c, _, x, hx, d, hd => by
    have hd' : d.length = MatV.rows x * MatV.cols x := hd
    refine ⟨({ (x : MatV F) with data := List.zipWith op (MatV.data x) d } : MatV F), ?_, ?_, ⟨rfl, rfl⟩, rfl⟩
    · show (if d.length = MatV.rows x * MatV.cols x then _ else _) = _
      rw [if_pos hd']
    · refine ⟨?_, hx.2.1, hx.2.2⟩
      show (List.zipWith op (MatV.data x) d).length = MatV.rows x * MatV.cols x
      rw [List.length_zipWith, hx.1, hd']; simp
  | .vec t, hg, x, hx, d, hd => by
    simp only [PTy.good, Bool.and_eq_true, Bool.or_eq_true] at hg
    obtain ⟨⟨h1, h2⟩, h3⟩ := hg
    obtain ⟨n, hn⟩ := Option.isSome_iff_exists.mp h2
    have h3' : t = .scalar ∨ t.sDims ≠ some 1 := by simpa using h3
    have hfl : ∀ y, List.Mem y (id x : List (t.Val F)) → (t.flat y).length = n := fun y hy => flat_static t n hn y (hx y hy)
    have hlen : List.length x * n = d.length := by rw [hd, C32_dims (.vec t) x hx]; exact (flatMap_len hfl).symm
    obtain ⟨l', l1, l2, l3, l4⟩ := updLoop_adds op t n d (fun i x => PTy.plusEqBy.elemUpd op t (t.plusEqBy op) i x d) x 0 hfl (by rw [Nat.zero_add]; exact hlen.le)
      (fun y hy j hj => elemUpd_adds op t h3' hn d y
        (fun e he => plusEqBy_adds t h1 y (hx y hy) e (by rw [he, C32_dims t y (hx y hy), hfl y hy])) j hj)
    refine ⟨l', l1, l2, l3, ?_⟩
    show List.flatMap t.flat l' = List.zipWith op (List.flatMap t.flat x) d
    rw [l4, Nat.zero_mul, List.drop_zero, hlen, List.take_length]
  | .arr m t, hg, x, hx, d, hd => by
    simp only [PTy.good, Bool.and_eq_true, Bool.or_eq_true] at hg
    obtain ⟨⟨h1, h2⟩, h3⟩ := hg
    obtain ⟨n, hn⟩ := Option.isSome_iff_exists.mp h2
    have h3' : t = .scalar ∨ t.sDims ≠ some 1 := by simpa using h3
    have hfl : ∀ y, List.Mem y (id x : List (t.Val F)) → (t.flat y).length = n := fun y hy => flat_static t n hn y (hx.2 y hy)
    have hlen : List.length x * n = d.length := by rw [hd, C32_dims (.arr m t) x hx]; exact (flatMap_len hfl).symm
    obtain ⟨l', l1, l2, l3, l4⟩ := updLoop_adds op t n d (fun i x => PTy.plusEqBy.elemUpd op t (t.plusEqBy op) i x d) x 0 hfl (by rw [Nat.zero_add]; exact hlen.le)
      (fun y hy j hj => elemUpd_adds op t h3' hn d y
        (fun e he => plusEqBy_adds t h1 y (hx.2 y hy) e (by rw [he, C32_dims t y (hx.2 y hy), hfl y hy])) j hj)
    refine ⟨l', l1, ⟨by rw [← l3.length_eq]; exact hx.1, l2⟩, l3, ?_⟩
    show List.flatMap t.flat l' = List.zipWith op (List.flatMap t.flat x) d
    rw [l4, Nat.zero_mul, List.drop_zero, hlen, List.take_length]
  | .pair a b, hg, x, hx, d, hd => by
    simp only [PTy.good, Bool.and_eq_true] at hg
    obtain ⟨⟨h1, h2⟩, h3⟩ := hg
    have hb : b.sDims = none := by simpa using h3
    have hd' : d.length = a.dims x.1 + b.dims x.2 := hd
    have hseg : seg d 0 (a.dims x.1) = .ok (d.take (a.dims x.1)) := by
      unfold seg; rw [if_pos (by omega), List.drop_zero]
    have hfirst : (match a.sDims with
      | none => (seg d 0 (a.dims x.1)).bind fun h => a.plusEqBy op x.1 h
      | some n => (seg d 0 n).bind fun h => a.plusEqBy op x.1 h) = a.plusEqBy op x.1 (d.take (a.dims x.1)) := by
      cases ha : a.sDims with
      | none => simp only [hseg, Res.bind_ok]
      | some n =>
        have : n = a.dims x.1 := by rw [C32_dims a x.1 hx.1, flat_static a n ha x.1 hx.1]
        simp only [this, hseg, Res.bind_ok]
    obtain ⟨y, y1, y2, y3, y4⟩ := plusEqBy_adds a h1 x.1 hx.1 (d.take (a.dims x.1)) (by rw [List.length_take]; omega)
    obtain ⟨z, z1, z2, z3, z4⟩ := plusEqBy_adds b h2 x.2 hx.2 (d.drop (a.dims x.1)) (by rw [List.length_drop]; omega)
    refine ⟨((y, z) : a.Val F × b.Val F), ?_, ⟨y2, z2⟩, ⟨y3, z3⟩, ?_⟩
    · show Res.bind (match a.sDims with
        | none => (seg d 0 (a.dims x.1)).bind fun h => a.plusEqBy op x.1 h
        | some n => (seg d 0 n).bind fun h => a.plusEqBy op x.1 h) _ = _
      refine (congrArg (fun r => Res.bind r _) (hfirst.trans y1)).trans ?_
      simp only [Res.bind_ok]
      rw [hb]
      simp only
      rw [if_pos (by omega), show d.length - b.dims x.2 = a.dims x.1 by omega, z1, Res.bind_ok]
    · show a.flat y ++ b.flat z = List.zipWith op (a.flat x.1 ++ b.flat x.2) d
      rw [y4, z4]
      conv_rhs => rw [← List.take_append_drop (a.dims x.1) d]
      rw [zipWith_append_len]
      rw [List.length_take, ← C32_dims a x.1 hx.1]; omega

/-- **C32** (partial): for every type of the fragment `good` and every value, `PlusEq` with a delta of `dims(x)`
entries reads only inside delta, keeps the shape and adds delta coordinate-wise.
Missing: containers of elements of dynamic dimensions and pairs whose second type has static dimensions, for
which the claim is false, see `C32_pair_wrong`, `C32_dynamic_elements_wrong`. -/
theorem C32_plusEq_partial [FloatOps F] (t : PTy) (hg : t.good = true) (x : t.Val F) (hx : t.WF x) (d : List F) (hd : d.length = t.dims x) :
    t.Adds add x d (t.plusEq x d) := plusEqBy_adds add t hg x hx d hd

end upd

/-- parameters of equal shape with equal coordinates are equal -/
theorem flat_inj {F : Type} : ∀ (t : PTy) (x y : t.Val F), t.WF x → t.WF y → t.SameShape x y → t.flat x = t.flat y → x = y
  | .scalar, x, y, _, _, _, h => by
    have h' : [(x : F)] = [y] := h
    exact List.cons.inj h' |>.1
  | .mat r c, x, y, _, _, hs, h => by
    cases x; cases y
    obtain ⟨h1, h2⟩ := hs
    simp only at h1 h2
    subst h1; subst h2
    have h' : (_ : List F) = _ := h
    simp only [PTy.flat] at h'
    subst h'; rfl
  | .vec t, x, y, hx, hy, hs, h => list_inj t (flat_inj t) x y hx hy hs h
  | .arr n t, x, y, hx, hy, hs, h => list_inj t (flat_inj t) x y hx.2 hy.2 hs h
  | .pair a b, x, y, hx, hy, hs, h => by
    obtain ⟨x1, x2⟩ := x
    obtain ⟨y1, y2⟩ := y
    have hl := shape_len a x1 y1 hs.1 hx.1 hy.1
    obtain ⟨h1, h2⟩ := List.append_inj h hl
    rw [flat_inj a x1 y1 hx.1 hy.1 hs.1 h1, flat_inj b x2 y2 hx.2 hy.2 hs.2 h2]
where
  shape_len {F : Type} : ∀ (t : PTy) (x y : t.Val F), t.SameShape x y → t.WF x → t.WF y → (t.flat x).length = (t.flat y).length
    | .scalar, _, _, _, _, _ => rfl
    | .mat _ _, x, y, hs, hx, hy => by
      show (MatV.data x).length = (MatV.data y).length
      rw [hx.1, hy.1, hs.1, hs.2]
    | .vec t, x, y, hs, hx, hy => list_len t (shape_len t) x y hs hx hy
    | .arr _ t, x, y, hs, hx, hy => list_len t (shape_len t) x y hs hx.2 hy.2
    | .pair a b, x, y, hs, hx, hy => by
      show (a.flat x.1 ++ b.flat x.2).length = (a.flat y.1 ++ b.flat y.2).length
      rw [List.length_append, List.length_append, shape_len a _ _ hs.1 hx.1 hy.1, shape_len b _ _ hs.2 hx.2 hy.2]
  list_len {F : Type} (t : PTy) (ih : ∀ x y : t.Val F, t.SameShape x y → t.WF x → t.WF y → (t.flat x).length = (t.flat y).length) :
      ∀ (x y : List (t.Val F)), List.Forall₂ t.SameShape x y → (∀ z ∈ x, t.WF z) → (∀ z ∈ y, t.WF z) →
        (x.flatMap t.flat).length = (y.flatMap t.flat).length
    | [], [], _, _, _ => rfl
    | a :: x, b :: y, .cons h hs, hx, hy => by
      rw [List.flatMap_cons, List.flatMap_cons, List.length_append, List.length_append, ih a b h (hx a List.mem_cons_self) (hy b List.mem_cons_self),
        list_len t ih x y hs (fun z hz => hx z (List.mem_cons_of_mem _ hz)) (fun z hz => hy z (List.mem_cons_of_mem _ hz))]
  list_inj {F : Type} (t : PTy) (ih : ∀ x y : t.Val F, t.WF x → t.WF y → t.SameShape x y → t.flat x = t.flat y → x = y) :
      ∀ (x y : List (t.Val F)), (∀ z ∈ x, t.WF z) → (∀ z ∈ y, t.WF z) → List.Forall₂ t.SameShape x y →
        x.flatMap t.flat = y.flatMap t.flat → x = y
    | [], [], _, _, _, _ => rfl
    | a :: x, b :: y, hx, hy, .cons h hs, e => by
      rw [List.flatMap_cons, List.flatMap_cons] at e
      obtain ⟨h1, h2⟩ := List.append_inj e (shape_len t a b h (hx a List.mem_cons_self) (hy b List.mem_cons_self))
      rw [ih a b (hx a List.mem_cons_self) (hy b List.mem_cons_self) h h1,
        list_inj t ih x y (fun z hz => hx z (List.mem_cons_of_mem _ hz)) (fun z hz => hy z (List.mem_cons_of_mem _ hz)) hs h2]

theorem shape_trans {F : Type} : ∀ (t : PTy) (x y z : t.Val F), t.SameShape x y → t.SameShape y z → t.SameShape x z
  | .scalar, _, _, _, _, _ => trivial
  | .mat _ _, _, _, _, h1, h2 => ⟨h1.1.trans h2.1, h1.2.trans h2.2⟩
  | .vec t, x, y, z, h1, h2 => forall2_trans t (shape_trans t) x y z h1 h2
  | .arr _ t, x, y, z, h1, h2 => forall2_trans t (shape_trans t) x y z h1 h2
  | .pair a b, _, _, _, h1, h2 => ⟨shape_trans a _ _ _ h1.1 h2.1, shape_trans b _ _ _ h1.2 h2.2⟩
where
  forall2_trans {F : Type} (t : PTy) (ih : ∀ x y z : t.Val F, t.SameShape x y → t.SameShape y z → t.SameShape x z) :
      ∀ x y z : List (t.Val F), List.Forall₂ t.SameShape x y → List.Forall₂ t.SameShape y z → List.Forall₂ t.SameShape x z
    | [], [], [], _, _ => .nil
    | _ :: x, _ :: y, _ :: z, .cons a h1, .cons b h2 => .cons (ih _ _ _ a b) (forall2_trans t ih x y z h1 h2)

/-- **C32** (partial), round trip: in exact arithmetic an update by `d` followed by one by `-d` restores the
parameters. Missing: the types outside `good`. -/
theorem C32_undo_partial (t : PTy) (hg : t.good = true) (x : t.Val ℝ) (hx : t.WF x) (d : List ℝ) (hd : d.length = t.dims x) :
    (t.plusEq x d).bind (fun y => t.plusEq y (d.map fun a => -a)) = .ok x := by
  obtain ⟨y, y1, y2, y3, y4⟩ := C32_plusEq_partial t hg x hx d hd
  have hl := C32_dims t x hx
  have hdy : t.dims y = t.dims x := by
    rw [C32_dims t y y2, y4, List.length_zipWith, hd, hl]; simp
  obtain ⟨z, z1, z2, z3, z4⟩ := C32_plusEq_partial t hg y y2 (d.map fun a => -a) (by rw [List.length_map, hd, hdy])
  rw [y1, Res.bind_ok, z1]
  congr 1
  refine (flat_inj t x z hx z2 (shape_trans t x y z y3 z3) ?_).symm
  rw [z4, y4]
  have hle : (t.flat x).length = d.length := by rw [hd, hl]
  have : ∀ (l e : List ℝ), l.length = e.length → l = List.zipWith add (List.zipWith add l e) (e.map fun a => -a) := by
    intro l
    induction l with
    | nil => intro e _; simp
    | cons a l ih =>
      intro e he
      cases e with
      | nil => cases he
      | cons b e =>
        simp only [List.zipWith_cons_cons, List.map_cons, RealOps.add_eq]
        rw [← ih e (by simpa using he)]
        congr 1; ring
  exact this _ _ hle

/-! ### The violations -/

/-- **C32 is violated** for every pair with a static second type for which the code compiles: whenever the update does
not fail, the second component is not updated. -/
theorem C32_pair_wrong {F : Type} [FloatOps F] (a b : PTy) {n : Nat} (hb : b.sDims = some n) (x y : (PTy.pair a b).Val F) (d : List F)
    (h : (PTy.pair a b).plusEq x d = .ok y) : b.flat y.2 = b.flat x.2 := by
  simp only [PTy.plusEq, PTy.plusEqBy] at h
  obtain ⟨u, -, h⟩ := Res.bind_eq_ok.mp h
  rw [hb] at h
  simp only at h
  split at h
  · split at h
    · obtain ⟨v, -, h⟩ := Res.bind_eq_ok.mp h
      injection h with h
      rw [← h]
    · cases h
  · cases h

/-- `double` -/
abbrev D64 := Fl Fmt.binary64

/-- a pair of scalars: adding (10, 20) to (1, 2) gives (31, 2) -/
theorem C32_pair_witness : ((PTy.pair .scalar .scalar).plusEq (F := D64) ((ofInt 1, ofInt 2) : D64 × D64) [ofInt 10, ofInt 20]).holds
    (fun p : Fl Fmt.binary64 × Fl Fmt.binary64 => eq p.1 (ofInt 31) && eq p.2 (ofInt 2)) = true := by decide +kernel

/-- **C32 is violated** for every vector of dynamic-size matrices whose first matrix is not empty: the update with
any delta is undefined. -/
theorem C32_dynamic_elements_wrong {F : Type} [FloatOps F] {r c : Option Nat} (hdyn : (PTy.mat r c).sDims = none) (m : MatV F) (hm : m.rows * m.cols ≠ 0)
    (l : List (MatV F)) (d : List F) : (PTy.vec (.mat r c)).plusEq (F := F) (m :: l : List (MatV F)) d = .ub := by
  show updLoop (α := MatV F) (fun i x => PTy.plusEqBy.elemUpd (F := F) add (.mat r c) (PTy.mat r c).plusEq i x d) 0 (m :: l) = _
  have : PTy.plusEqBy.elemUpd (F := F) add (.mat r c) (PTy.mat r c).plusEq 0 m d = .ub := by
    unfold PTy.plusEqBy.elemUpd
    simp only
    rw [if_neg (by rw [hdyn]; simp), hdyn]
    simp only [Nat.zero_mul, seg, Nat.zero_add, Nat.zero_le, if_true, Res.bind_ok, List.take_zero]
    show (if List.length [] = m.rows * m.cols then _ else _) = _
    rw [if_neg (by simpa using hm.symm)]
  show Res.bind (PTy.plusEqBy.elemUpd (F := F) add (.mat r c) (PTy.mat r c).plusEq 0 m d) _ = _
  rw [this]; rfl

/-- without undefined behaviour: the vectors ((), (1,2,3,4,5,6), (7)) are updated with overlapping parts of delta, the first
entry of delta is not used -/
theorem C32_vectors_witness : ((PTy.vec (.vec .scalar)).plusEq (F := Fl Fmt.binary64)
      ([[], [ofInt 0, ofInt 0, ofInt 0, ofInt 0, ofInt 0, ofInt 0], [ofInt 0]] : List (List D64)) [ofInt 1, ofInt 2, ofInt 3, ofInt 4, ofInt 5, ofInt 6, ofInt 7]).holds
    (fun l => (List.zip ((PTy.vec (.vec .scalar)).flat l) [ofInt 2, ofInt 3, ofInt 4, ofInt 5, ofInt 6, ofInt 7, ofInt 3]).all
      fun p : Fl Fmt.binary64 × Fl Fmt.binary64 => eq p.1 p.2) = true := by decide +kernel

/-! ### Casting -/

/-- Casting converts every coordinate and keeps the order and the number of coordinates. -/
theorem C32_cast {F G : Type} (f : F → G) : ∀ (t : PTy) (x : t.Val F), t.flat (t.cast f x) = (t.flat x).map f
  | .scalar, _ => rfl
  | .mat _ _, _ => rfl
  | .vec t, x => go t x (C32_cast f t)
  | .arr _ t, x => go t x (C32_cast f t)
  | .pair a b, x => by
    show a.flat (a.cast f x.1) ++ b.flat (b.cast f x.2) = (a.flat x.1 ++ b.flat x.2).map f
    rw [C32_cast f a, C32_cast f b, List.map_append]
where
  go (t : PTy) (x : List (t.Val F)) (ih : ∀ y : t.Val F, t.flat (t.cast f y) = (t.flat y).map f) :
      (x.map (t.cast f)).flatMap t.flat = (x.flatMap t.flat).map f := by
    induction x with
    | nil => rfl
    | cons a x ihx => simp only [List.map_cons, List.flatMap_cons, List.map_append, ih a, ihx]

/-- Casting keeps the shape. -/
theorem C32_cast_shape {F G : Type} (f : F → G) : ∀ (t : PTy) (x : t.Val F), t.SameShape x (t.cast f x)
  | .scalar, _ => trivial
  | .mat _ _, _ => ⟨rfl, rfl⟩
  | .vec t, x => go t x (C32_cast_shape f t)
  | .arr _ t, x => go t x (C32_cast_shape f t)
  | .pair a b, x => ⟨C32_cast_shape f a x.1, C32_cast_shape f b x.2⟩
where
  go (t : PTy) (x : List (t.Val F)) (ih : ∀ y : t.Val F, t.SameShape y (t.cast f y)) :
      List.Forall₂ t.SameShape x (x.map (t.cast f)) := by
    induction x with
    | nil => exact .nil
    | cons a x ihx => exact .cons (ih a) ihx

/-! ### A nested example meeting the hypotheses -/

/-- `std::pair<std::array<Vector2, 2>, std::pair<double, std::vector<std::array<double, 2>>>>` -/
def nestTy : PTy := .pair (.arr 2 (.mat (some 2) (some 1))) (.pair .scalar (.vec (.arr 2 .scalar)))

/-- a value of it, with two elements in the vector -/
def nestVal {F : Type} (z : F) : nestTy.Val F :=
  (([⟨2, 1, [z, z]⟩, ⟨2, 1, [z, z]⟩] : List (MatV F)), (z, ([[z, z], [z, z]] : List (List F))))

theorem nest_wf {F : Type} (z : F) : nestTy.WF (nestVal z) := by
  refine ⟨⟨rfl, ?_⟩, trivial, ?_⟩
  · intro y hy
    have : y = (⟨2, 1, [z, z]⟩ : MatV F) := by
      have h : ∀ y : MatV F, y ∈ ([⟨2, 1, [z, z]⟩, ⟨2, 1, [z, z]⟩] : List (MatV F)) → y = ⟨2, 1, [z, z]⟩ := by simp
      exact h y hy
    subst this
    exact ⟨rfl, fun k h => by cases h; rfl, fun k h => by cases h; rfl⟩
  · intro y hy
    have : y = ([z, z] : List F) := by
      have h : ∀ y : List F, y ∈ ([[z, z], [z, z]] : List (List F)) → y = [z, z] := by simp
      exact h y hy
    subst this
    exact ⟨rfl, fun _ _ => trivial⟩

example : nestTy.good = true ∧ nestTy.dims (nestVal (0 : ℝ)) = 9 := by decide

end Verif
