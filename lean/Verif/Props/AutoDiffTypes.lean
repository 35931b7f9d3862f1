import Verif.Model.Seed
import Verif.Props.DynJetProps
import Verif.Lemmas.Hom
/-!
# C72: automatic differentiation is along the update of the parameters, for every parameter type
-/

namespace Verif

/-! ### `PlusEq` does not depend on the scalars -/

section natural
variable {F G : Type} (op : F → F → F) (op' : G → G → G) (h : F → G)

theorem dims_cast : ∀ (t : PTy) (x : t.Val F), t.dims (t.cast h x) = t.dims x
  | .scalar, _ => rfl
  | .mat _ _, _ => rfl
  | .vec t, x => by
    have e := go t (dims_cast t) x 0
    show (if t = .scalar ∨ t.sDims = some 1 then (List.map (t.cast h) x).length else match t.sDims with
      | none => List.foldl (fun d x => d + t.dims x) 0 (List.map (t.cast h) x)
      | some d => (List.map (t.cast h) x).length * d) = (if t = .scalar ∨ t.sDims = some 1 then List.length x else match t.sDims with
      | none => List.foldl (fun d x => d + t.dims x) 0 x
      | some d => List.length x * d)
    have l : (List.map (t.cast h) (id x : List (t.Val F))).length = List.length x := List.length_map _
    simp only [id] at l
    rw [e, l]
  | .arr n t, x => by
    have e := go t (dims_cast t) x 0
    show (if t = .scalar ∨ t.sDims = some 1 then n else match t.sDims with
      | none => List.foldl (fun d x => d + t.dims x) 0 (List.map (t.cast h) x)
      | some d => (List.map (t.cast h) x).length * d) = (if t = .scalar ∨ t.sDims = some 1 then n else match t.sDims with
      | none => List.foldl (fun d x => d + t.dims x) 0 x
      | some d => List.length x * d)
    have l : (List.map (t.cast h) (id x : List (t.Val F))).length = List.length x := List.length_map _
    simp only [id] at l
    rw [e, l]
  | .pair a b, x => by
    show a.dims (a.cast h x.1) + b.dims (b.cast h x.2) = a.dims x.1 + b.dims x.2
    rw [dims_cast a, dims_cast b]
where
  go (t : PTy) (ih : ∀ y : t.Val F, t.dims (t.cast h y) = t.dims y) : ∀ (x : List (t.Val F)) (k : Nat),
      List.foldl (fun d x => d + t.dims x) k (List.map (t.cast h) x) = List.foldl (fun d x => d + t.dims x) k x
    | [], _ => rfl
    | y :: x, k => by
      rw [List.map_cons, List.foldl_cons, List.foldl_cons, ih, go t ih x]

theorem seg_map (d : List F) (s l : Nat) : seg (d.map h) s l = (seg d s l).map (List.map h) := by
  unfold seg
  rw [List.length_map]
  split
  · simp [Res.map]
  · rfl

theorem updLoop_map {α β : Type} (g : α → β) (f : Nat → α → Res α) (f' : Nat → β → Res β) (hf : ∀ i x, f' i (g x) = (f i x).map g) :
    ∀ (l : List α) (i : Nat), updLoop f' i (l.map g) = (updLoop f i l).map (List.map g)
  | [], _ => rfl
  | x :: l, i => by
    simp only [List.map_cons, updLoop, hf, updLoop_map g f f' hf l (i + 1)]
    cases f i x <;> simp [Res.map]
    cases updLoop f (i + 1) l <;> simp

/-- the update of the first component of a pair -/
def PTy.pairFst (a : PTy) (x : a.Val F) (d : List F) : Res (a.Val F) :=
  match a.sDims with
  | none => (seg d 0 (a.dims x)).bind fun s => a.plusEqBy op x s
  | some n => (seg d 0 n).bind fun s => a.plusEqBy op x s

/-- the rest of the update of a pair -/
def PTy.pairSnd (a b : PTy) (y : b.Val F) (d : List F) (u : a.Val F) : Res (a.Val F × b.Val F) :=
  match b.sDims with
  | none => if b.dims y ≤ d.length then
      (b.plusEqBy op y (d.drop (d.length - b.dims y))).bind fun z => .ok (u, z)
    else .ub
  | some n =>
    if h : a = b then
      if n ≤ d.length then (b.plusEqBy op (h ▸ u) (d.drop (d.length - n))).bind fun z => .ok (h ▸ z, y) else .ub
    else .ub

theorem pair_eq (a b : PTy) (x : a.Val F × b.Val F) (d : List F) :
    (PTy.pair a b).plusEqBy op x d = (PTy.pairFst op a x.1 d).bind (PTy.pairSnd op a b x.2 d) := rfl

variable (hh : ∀ a b, h (op a b) = op' (h a) (h b))
include hh

theorem zipWith_hom : ∀ l d : List F, (List.zipWith op l d).map h = List.zipWith op' (l.map h) (d.map h)
  | [], _ => rfl
  | _ :: _, [] => rfl
  | a :: l, b :: d => by simp only [List.zipWith_cons_cons, List.map_cons, hh, zipWith_hom l d]

/-- The update commutes with a conversion of the scalars that respects the addition. -/
theorem plusEqBy_cast : ∀ (t : PTy) (x : t.Val F) (d : List F),
    t.plusEqBy op' (t.cast h x) (d.map h) = (t.plusEqBy op x d).map (t.cast h)
  | .scalar, x, d => by
    cases d with
    | nil => rfl
    | cons e d => exact congrArg Res.ok (hh x e).symm
  | .mat r c, x, d => by
    show (if (d.map h).length = MatV.rows x * MatV.cols x then _ else _) = Res.map _ (if d.length = MatV.rows x * MatV.cols x then _ else _)
    rw [List.length_map]
    split
    · show Res.ok (⟨_, _, _⟩ : MatV G) = Res.ok (⟨_, _, _⟩ : MatV G)
      rw [zipWith_hom op op' h hh]
      rfl
    · rfl
  | .vec t, x, d => updLoop_map (t.cast h) _ _ (fun i y => elem t (plusEqBy_cast t) i y d) x 0
  | .arr n t, x, d => updLoop_map (t.cast h) _ _ (fun i y => elem t (plusEqBy_cast t) i y d) x 0
  | .pair a b, x, d => by
    obtain ⟨x, y⟩ := x
    have key : ∀ n, (seg (d.map h) 0 n).bind (fun s => a.plusEqBy op' (a.cast h x) s) =
        ((seg d 0 n).bind fun s => a.plusEqBy op x s).map (a.cast h) := by
      intro n
      rw [seg_map]
      cases seg d 0 n with
      | ok s => exact plusEqBy_cast a x s
      | ub => rfl
      | throw => rfl
      | fuel => rfl
    have e1 : PTy.pairFst op' a (a.cast h x) (d.map h) = (PTy.pairFst op a x d).map (a.cast h) := by
      unfold PTy.pairFst
      cases a.sDims with
      | none => simp only [dims_cast]; exact key _
      | some n => exact key n
    have e2 : ∀ u, PTy.pairSnd op' a b (b.cast h y) (d.map h) (a.cast h u) = (PTy.pairSnd op a b y d u).map fun p => (a.cast h p.1, b.cast h p.2) := by
      intro u
      unfold PTy.pairSnd
      cases b.sDims with
      | none =>
        simp only [dims_cast, List.length_map]
        split
        · rw [← List.map_drop, plusEqBy_cast b y]
          cases b.plusEqBy op y (d.drop (d.length - b.dims y)) <;> rfl
        · rfl
      | some n =>
        simp only
        by_cases hab : a = b
        · subst hab
          simp only [dif_pos, List.length_map]
          split
          · rw [← List.map_drop, plusEqBy_cast a u]
            cases a.plusEqBy op u (d.drop (d.length - n)) <;> rfl
          · rfl
        · simp only [dif_neg hab]; rfl
    refine (pair_eq op' a b (a.cast h x, b.cast h y) (d.map h)).trans ?_
    refine Eq.trans ?_ (congrArg (Res.map _) (pair_eq op a b (x, y) d)).symm
    simp only [e1]
    cases PTy.pairFst op a x d with
    | ok u => exact e2 u
    | ub => rfl
    | throw => rfl
    | fuel => rfl
where
  elem (t : PTy) (ih : ∀ (x : t.Val F) (d : List F), t.plusEqBy op' (t.cast h x) (d.map h) = (t.plusEqBy op x d).map (t.cast h))
      (i : Nat) (x : t.Val F) (d : List F) :
      PTy.plusEqBy.elemUpd op' t (t.plusEqBy op') i (t.cast h x) (d.map h) = (PTy.plusEqBy.elemUpd op t (t.plusEqBy op) i x d).map (t.cast h) := by
    have key : ∀ s l, (seg (d.map h) s l).bind (fun s => t.plusEqBy op' (t.cast h x) s) = ((seg d s l).bind fun s => t.plusEqBy op x s).map (t.cast h) := by
      intro s l
      rw [seg_map]
      cases seg d s l with
      | ok s => exact ih x s
      | ub => rfl
      | throw => rfl
      | fuel => rfl
    have gen : ∀ h0 : t ≠ .scalar, (if t.sDims = some 1 then (.ub : Res (t.Val G))
        else match t.sDims with
          | some n => (seg (d.map h) (i * n) n).bind fun s => t.plusEqBy op' (t.cast h x) s
          | none => (seg (d.map h) i (i * t.dims (t.cast h x))).bind fun s => t.plusEqBy op' (t.cast h x) s) =
        (if t.sDims = some 1 then (.ub : Res (t.Val F))
        else match t.sDims with
          | some n => (seg d (i * n) n).bind fun s => t.plusEqBy op x s
          | none => (seg d i (i * t.dims x)).bind fun s => t.plusEqBy op x s).map (t.cast h) := by
      intro _
      split
      · rfl
      · rw [dims_cast]
        cases t.sDims with
        | none => exact key _ _
        | some n => exact key _ _
    cases t with
    | scalar =>
      unfold PTy.plusEqBy.elemUpd
      simp only [List.getElem?_map]
      cases d[i]? with
      | none => rfl
      | some e => exact congrArg Res.ok (hh x e).symm
    | mat r c => exact gen (by simp)
    | vec t => exact gen (by simp)
    | arr n t => exact gen (by simp)
    | pair a b => exact gen (by simp)

end natural

/-! ### The update of a type of compile-time dimension is defined -/

theorem updLoop_ok {α : Type} (P : α → Prop) (f : Nat → α → Res α) : ∀ (l : List α) (i : Nat),
    (∀ x ∈ l, ∀ j, i ≤ j → j < i + l.length → ∃ y, f j x = .ok y ∧ P y) → ∃ l', updLoop f i l = .ok l' ∧ l'.length = l.length ∧ ∀ y ∈ l', P y
  | [], _, _ => ⟨[], rfl, rfl, by simp⟩
  | x :: l, i, h => by
    obtain ⟨y, y1, y2⟩ := h x List.mem_cons_self i le_rfl (by simp)
    obtain ⟨l', l1, l2, l3⟩ := updLoop_ok P f l (i + 1) (fun z hz j h1 h2 => h z (List.mem_cons_of_mem _ hz) j (by omega) (by rw [List.length_cons]; omega))
    refine ⟨y :: l', by simp only [updLoop, y1, l1, Res.bind_ok], by simp [l2], ?_⟩
    intro z hz
    rcases List.mem_cons.mp hz with rfl | hz
    · exact y2
    · exact l3 z hz

theorem elem_static {F : Type} (op : F → F → F) (t : PTy) (h3 : t.sDims ≠ some 1) {e : Nat} (ht : t.sDims = some e) (rec : t.Val F → List F → Res (t.Val F))
    (i : Nat) (x : t.Val F) (d : List F) : PTy.plusEqBy.elemUpd op t rec i x d = (seg d (i * e) e).bind fun s => rec x s := by
  cases t with
  | scalar => exact absurd rfl h3
  | mat r c => unfold PTy.plusEqBy.elemUpd; simp only; rw [if_neg h3, ht]
  | vec t => cases ht
  | arr k t => unfold PTy.plusEqBy.elemUpd; simp only; rw [if_neg h3, ht]
  | pair a b => unfold PTy.plusEqBy.elemUpd; simp only; rw [if_neg h3, ht]

theorem static_defined {F : Type} (op : F → F → F) : ∀ (t : PTy) (n : Nat), t.compiles = true → t.sDims = some n → ∀ (x : t.Val F), t.WF x →
    ∀ d : List F, d.length = n → ∃ y, t.plusEqBy op x d = .ok y ∧ t.WF y
  | .scalar, n, _, hn, x, _, d, hd => by
    cases hn
    obtain ⟨e, rfl⟩ := List.length_eq_one_iff.mp hd
    exact ⟨op x e, rfl, trivial⟩
  | .mat r c, n, _, hn, x, hx, d, hd => by
    have hl : d.length = MatV.rows x * MatV.cols x := by
      rw [hd, ← flat_static (.mat r c) n hn x hx]; exact hx.1
    refine ⟨({ (x : MatV F) with data := List.zipWith op (MatV.data x) d } : MatV F), if_pos hl, ?_, hx.2.1, hx.2.2⟩
    show (List.zipWith op (MatV.data x) d).length = MatV.rows x * MatV.cols x
    rw [List.length_zipWith, hx.1, hl]; simp
  | .vec t, n, _, hn, x, hx, d, hd => by cases hn
  | .arr m t, n, hc, hn, x, hx, d, hd => by
    simp only [PTy.compiles, Bool.and_eq_true, Bool.or_eq_true] at hc
    simp only [PTy.sDims] at hn
    cases ht : t.sDims with
    | none => rw [ht] at hn; cases hn
    | some e =>
      rw [ht] at hn
      obtain rfl : m * e = n := by simpa using hn
      have h3 : t = .scalar ∨ t.sDims ≠ some 1 := by simpa using hc.2
      obtain ⟨l', l1, l2, l3⟩ := updLoop_ok t.WF (fun i y => PTy.plusEqBy.elemUpd op t (t.plusEqBy op) i y d) x 0 (by
        intro y hy j _ hj
        have hj' : j < m := by rw [Nat.zero_add] at hj; exact hx.1 ▸ hj
        have hb : j * e + e ≤ d.length := by
          rw [hd]
          calc j * e + e = (j + 1) * e := by ring
            _ ≤ m * e := Nat.mul_le_mul_right _ hj'
        have hseg : seg d (j * e) e = .ok ((d.drop (j * e)).take e) := if_pos hb
        have gen : ∃ z, ((seg d (j * e) e).bind fun s => t.plusEqBy op y s) = .ok z ∧ t.WF z := by
          rw [hseg]
          exact static_defined op t e hc.1 ht y (hx.2 y hy) _ (by rw [List.length_take, List.length_drop]; omega)
        rcases h3 with rfl | h3
        · cases ht
          have hjd : j < d.length := by omega
          refine ⟨op y d[j], ?_, trivial⟩
          unfold PTy.plusEqBy.elemUpd
          simp only [List.getElem?_eq_getElem hjd]
          rfl
        · rw [elem_static op t h3 ht]; exact gen)
      exact ⟨l', l1, l2.trans hx.1, l3⟩
  | .pair a b, n, hc, hn, x, hx, d, hd => by
    simp only [PTy.compiles, Bool.and_eq_true, Bool.or_eq_true] at hc
    simp only [PTy.sDims] at hn
    obtain ⟨x, y⟩ := x
    cases ha : a.sDims with
    | none => rw [ha] at hn; cases hn
    | some p => cases hb : b.sDims with
      | none => rw [ha, hb] at hn; cases hn
      | some q =>
        rw [ha, hb] at hn
        obtain rfl : p + q = n := by simpa using hn
        obtain rfl : a = b := by
          rcases hc.2 with h | h
          · rw [hb] at h; simp at h
          · simpa using h
        obtain rfl : p = q := by rw [ha] at hb; simpa using hb
        obtain ⟨u, u1, u2⟩ := static_defined op a p hc.1.1 ha x hx.1 (d.take p) (by rw [List.length_take]; omega)
        obtain ⟨v, v1, v2⟩ := static_defined op a p hc.1.1 ha u u2 (d.drop (d.length - p)) (by rw [List.length_drop]; omega)
        refine ⟨(v, y), ?_, v2, hx.2⟩
        refine (pair_eq op a a (x, y) d).trans ?_
        have e1 : PTy.pairFst op a x d = .ok u := by
          unfold PTy.pairFst
          rw [ha]
          simp only [seg, if_pos (show 0 + p ≤ d.length by omega), List.drop_zero, Res.bind_ok, u1]
        rw [e1, Res.bind_ok]
        unfold PTy.pairSnd
        rw [ha]
        simp only [dif_pos, if_pos (show p ≤ d.length by omega), v1, Res.bind_ok]
        rfl

theorem cast_cast {F G H : Type} (g : G → H) (f : F → G) : ∀ (t : PTy) (x : t.Val F), t.cast g (t.cast f x) = t.cast (fun a => g (f a)) x
  | .scalar, _ => rfl
  | .mat r c, x => congrArg (fun l => (⟨MatV.rows x, MatV.cols x, l⟩ : MatV H)) (List.map_map (f := f) (g := g) (l := MatV.data x))
  | .vec t, x => go t (cast_cast g f t) x
  | .arr _ t, x => go t (cast_cast g f t) x
  | .pair a b, x => Prod.ext (cast_cast g f a x.1) (cast_cast g f b x.2)
where
  go (t : PTy) (ih : ∀ x : t.Val F, t.cast g (t.cast f x) = t.cast (fun a => g (f a)) x) (x : List (t.Val F)) :
      (x.map (t.cast f)).map (t.cast g) = x.map (t.cast fun a => g (f a)) := by
    rw [List.map_map]
    exact List.map_congr_left fun y _ => ih y

theorem cast_id {F : Type} : ∀ (t : PTy) (x : t.Val F), t.cast (fun a => a) x = x
  | .scalar, _ => rfl
  | .mat r c, x => by
    show (⟨MatV.rows x, MatV.cols x, List.map (fun a => a) (MatV.data x)⟩ : MatV F) = x
    rw [List.map_id']
    rfl
  | .vec t, x => go t (cast_id t) x
  | .arr _ t, x => go t (cast_id t) x
  | .pair a b, x => Prod.ext (cast_id a x.1) (cast_id b x.2)
where
  go (t : PTy) (ih : ∀ x : t.Val F, t.cast (fun a => a) x = x) (x : List (t.Val F)) : x.map (t.cast fun a => a) = x := by
    conv_rhs => rw [← List.map_id x]
    exact List.map_congr_left fun y _ => ih y

theorem wf_cast {F G : Type} (f : F → G) : ∀ (t : PTy) (x : t.Val F), t.WF x → t.WF (t.cast f x)
  | .scalar, _, _ => trivial
  | .mat r c, x, h => ⟨(List.length_map f).trans h.1, h.2.1, h.2.2⟩
  | .vec t, x, h => go t (wf_cast f t) x h
  | .arr _ t, x, h => ⟨(List.length_map (t.cast f)).trans h.1, go t (wf_cast f t) x h.2⟩
  | .pair a b, x, h => ⟨wf_cast f a x.1 h.1, wf_cast f b x.2 h.2⟩
where
  go (t : PTy) (ih : ∀ x : t.Val F, t.WF x → t.WF (t.cast f x)) (x : List (t.Val F)) (h : ∀ y ∈ x, t.WF y) : ∀ y ∈ x.map (t.cast f), t.WF y := by
    intro y hy
    obtain ⟨z, hz, rfl⟩ := List.mem_map.mp hy
    exact ih z (h z hz)

theorem updLoop_eq {α : Type} (f : Nat → α → Res α) : ∀ (l l' : List α) (i : Nat), l.length = l'.length →
    (∀ k (h : k < l.length) (h' : k < l'.length), f (i + k) l[k] = .ok l'[k]) → updLoop f i l = .ok l'
  | [], [], _, _, _ => rfl
  | x :: l, y :: l', i, hl, h => by
    have h0 := h 0 (by simp) (by simp)
    simp only [Nat.add_zero, List.getElem_cons_zero] at h0
    have ht := updLoop_eq f l l' (i + 1) (by simpa using hl) (fun k hk hk' => by
      have := h (k + 1) (by simpa using hk) (by simpa using hk')
      simp only [List.getElem_cons_succ] at this
      rw [show i + 1 + k = i + (k + 1) by omega]
      exact this)
    simp only [updLoop, h0, ht, Res.bind_ok]

theorem mem_seg {F : Type} {d s : List F} {i l : Nat} (h : seg d i l = .ok s) : ∀ e ∈ s, e ∈ d := by
  unfold seg at h
  split at h
  · cases h
    intro e he
    exact List.mem_of_mem_drop (List.mem_of_mem_take he)
  · cases h

/-- A step of zeros changes nothing. -/
theorem plusEqBy_zero {F : Type} (op : F → F → F) : ∀ (t : PTy) (x y : t.Val F), t.WF x → ∀ d : List F, (∀ e ∈ d, ∀ a, op a e = a) →
    t.plusEqBy op x d = .ok y → y = x
  | .scalar, x, y, _, d, hd, h => by
    cases d with
    | nil => cases h
    | cons e d =>
      have h' : (Res.ok (op x e) : Res F) = .ok y := h
      injection h' with h'
      exact h'.symm.trans (hd e List.mem_cons_self x)
  | .mat r c, x, y, hx, d, hd, h => by
    have h' : (if d.length = MatV.rows x * MatV.cols x then (.ok ⟨MatV.rows x, MatV.cols x, List.zipWith op (MatV.data x) d⟩ : Res (MatV F)) else .ub) = .ok y := h
    split at h'
    · rename_i hl
      injection h' with h'
      have key : ∀ (l d : List F), l.length = d.length → (∀ e ∈ d, ∀ a, op a e = a) → List.zipWith op l d = l := by
        intro l
        induction l with
        | nil => intro d _ _; rfl
        | cons a l ih =>
          intro d hl hd
          cases d with
          | nil => cases hl
          | cons e d =>
            rw [List.zipWith_cons_cons, hd e List.mem_cons_self, ih d (by simpa using hl) fun e he => hd e (List.mem_cons_of_mem _ he)]
      rw [key _ _ (hx.1.trans hl.symm) hd] at h'
      exact h'.symm
    · cases h'
  | .vec t, x, y, hx, d, hd, h => loop t (plusEqBy_zero op t) d hd x y 0 hx h
  | .arr _ t, x, y, hx, d, hd, h => loop t (plusEqBy_zero op t) d hd x y 0 hx.2 h
  | .pair a b, x, y, hx, d, hd, h => by
    obtain ⟨x1, x2⟩ := x
    have h' : (PTy.pairFst op a x1 d).bind (PTy.pairSnd op a b x2 d) = .ok y := h
    obtain ⟨u, hu, h2⟩ := Res.bind_eq_ok.mp h'
    clear h' h
    have hu' : u = x1 := by
      have key : ∀ n, ((seg d 0 n).bind fun s => a.plusEqBy op x1 s) = .ok u → u = x1 := by
        intro n hn
        obtain ⟨s, hs, hn⟩ := Res.bind_eq_ok.mp hn
        exact plusEqBy_zero op a x1 u hx.1 s (fun e he => hd e (mem_seg hs e he)) hn
      unfold PTy.pairFst at hu
      cases ha : a.sDims with
      | none => rw [ha] at hu; exact key _ hu
      | some n => rw [ha] at hu; exact key _ hu
    subst hu'
    have hdrop : ∀ k, ∀ e ∈ d.drop k, ∀ a, op a e = a := fun k e he => hd e (List.mem_of_mem_drop he)
    unfold PTy.pairSnd at h2
    cases hb : b.sDims with
    | none =>
      rw [hb] at h2
      simp only at h2
      split at h2
      · obtain ⟨z, hz, h2⟩ := Res.bind_eq_ok.mp h2
        injection h2 with h2
        rw [plusEqBy_zero op b x2 z hx.2 _ (hdrop _) hz] at h2
        exact h2.symm
      · cases h2
    | some n =>
      rw [hb] at h2
      simp only at h2
      by_cases hab : a = b
      · subst hab
        simp only [dif_pos] at h2
        split at h2
        · obtain ⟨z, hz, h2⟩ := Res.bind_eq_ok.mp h2
          injection h2 with h2
          rw [plusEqBy_zero op a u z hx.1 _ (hdrop _) hz] at h2
          exact h2.symm
        · cases h2
      · rw [dif_neg hab] at h2; cases h2
where
  loop {F : Type} {op : F → F → F} (t : PTy) (ih : ∀ (x y : t.Val F), t.WF x → ∀ d : List F, (∀ e ∈ d, ∀ a, op a e = a) → t.plusEqBy op x d = .ok y → y = x)
      (d : List F) (hd : ∀ e ∈ d, ∀ a, op a e = a) : ∀ (x y : List (t.Val F)) (i : Nat), (∀ z ∈ x, t.WF z) →
        updLoop (fun i x => PTy.plusEqBy.elemUpd op t (t.plusEqBy op) i x d) i x = .ok y → y = x
    | [], y, i, _, h => by injection h with h; exact h.symm
    | x :: l, y, i, hx, h => by
      obtain ⟨u, hu, h⟩ := Res.bind_eq_ok.mp h
      obtain ⟨l', hl', h⟩ := Res.bind_eq_ok.mp h
      injection h with h
      rw [← h, loop t ih d hd l l' (i + 1) (fun z hz => hx z (List.mem_cons_of_mem _ hz)) hl']
      congr 1
      have key : ∀ s n, ((seg d s n).bind fun s => t.plusEqBy op x s) = .ok u → u = x := by
        intro s n hn
        obtain ⟨s, hs, hn⟩ := Res.bind_eq_ok.mp hn
        exact ih x u (hx x List.mem_cons_self) s (fun e he => hd e (mem_seg hs e he)) hn
      have gen : (if t.sDims = some 1 then (.ub : Res (t.Val F)) else match t.sDims with
          | some n => (seg d (i * n) n).bind fun s => t.plusEqBy op x s
          | none => (seg d i (i * t.dims x)).bind fun s => t.plusEqBy op x s) = .ok u → u = x := by
        intro h
        split at h
        · cases h
        · cases ht : t.sDims with
          | none => rw [ht] at h; exact key _ _ h
          | some n => rw [ht] at h; exact key _ _ h
      cases t with
      | scalar =>
        have hu : (match d[i]? with
          | some e => (.ok (op x e) : Res F)
          | none => .ub) = .ok u := hu
        cases hi : d[i]? with
        | none => rw [hi] at hu; cases hu
        | some e =>
          rw [hi] at hu
          injection hu with hu
          exact hu.symm.trans (hd e (List.mem_of_getElem? hi) x)
      | mat r c => exact gen hu
      | vec t => exact gen hu
      | arr n t => exact gen hu
      | pair a b => exact gen hu

namespace Loss
open Classical Filter Topology

/-! ### Expressions of expressions -/

/-- expressions for the variables -/
def Expr.subst {k n} (s : Fin k → Expr n) : Expr k → Expr n
  | .var i => s i
  | .const c => .const c
  | .op1 o e => .op1 o (e.subst s)
  | .op2 o e₁ e₂ => .op2 o (e₁.subst s) (e₂.subst s)
  | .op3 o e₁ e₂ e₃ => .op3 o (e₁.subst s) (e₂.subst s) (e₃.subst s)

theorem jetAt_subst {k n} (s : Fin k → Expr n) (x : RVec n) (e : Expr k) : e.jetAt (fun j => (s j).jet x) = (e.subst s).jet x := by
  induction e with
  | var i => rfl
  | const c => rfl
  | op1 o e ih => simp only [Expr.jetAt, Expr.subst, Expr.jet, ih]
  | op2 o e₁ e₂ ih₁ ih₂ => simp only [Expr.jetAt, Expr.subst, Expr.jet, ih₁, ih₂]
  | op3 o e₁ e₂ e₃ ih₁ ih₂ ih₃ => simp only [Expr.jetAt, Expr.subst, Expr.jet, ih₁, ih₂, ih₃]

theorem value_subst {k n} (s : Fin k → Expr n) (x : RVec n) (e : Expr k) : (e.subst s).value x = e.value fun j => (s j).value x := by
  induction e with
  | var i => rfl
  | const c => rfl
  | op1 o e ih => simp only [Expr.subst, Expr.value, ih]
  | op2 o e₁ e₂ ih₁ ih₂ => simp only [Expr.subst, Expr.value, ih₁, ih₂]
  | op3 o e₁ e₂ e₃ ih₁ ih₂ ih₃ => simp only [Expr.subst, Expr.value, ih₁, ih₂, ih₃]

theorem inDomain_subst {k n} (s : Fin k → Expr n) (x : RVec n) (hs : ∀ j, (s j).InDomain x)
    (hc : ContinuousAt (fun (y : RVec n) (j : Fin k) => (s j).value y) x) (e : Expr k) (he : e.InDomain fun j => (s j).value x) : (e.subst s).InDomain x := by
  have hl : ∀ e : Expr k, e.LocConst (fun j => (s j).value x) → (e.subst s).LocConst x := by
    intro e h
    have := hc.eventually h
    filter_upwards [this] with y hy
    rw [value_subst, value_subst, hy]
  induction e with
  | var i => exact hs i
  | const c => trivial
  | op1 o e ih =>
    refine ⟨ih he.1, ?_⟩
    rw [value_subst]
    rcases he.2 with h | ⟨b, h1, h2, h3, h4⟩
    · exact Or.inl h
    · exact Or.inr ⟨b, h1, h2, h3, hl e h4⟩
  | op2 o e₁ e₂ ih₁ ih₂ =>
    refine ⟨ih₁ he.1, ih₂ he.2.1, ?_⟩
    rw [value_subst, value_subst]
    rcases he.2.2 with h | ⟨h1, h2, h3⟩
    · exact Or.inl h
    · exact Or.inr ⟨h1, hl e₂ h2, h3⟩
  | op3 o e₁ e₂ e₃ ih₁ ih₂ ih₃ =>
    refine ⟨ih₁ he.1, ih₂ he.2.1, ih₃ he.2.2.1, ?_⟩
    rw [value_subst, value_subst, value_subst]
    exact he.2.2.2

/-- sums of constants and variables -/
inductive Expr.Lin {n} : Expr n → Prop
  | const (c : ℝ) : Lin (.const c)
  | var (i : Fin n) : Lin (.var i)
  | add {a b : Expr n} : Lin a → Lin b → Lin (.op2 .add a b)

theorem Expr.Lin.inDomain {n} {e : Expr n} (h : e.Lin) (x : RVec n) : e.InDomain x := by
  induction h with
  | const c => trivial
  | var i => trivial
  | add _ _ h1 h2 => exact ⟨h1, h2, Or.inl trivial⟩

theorem Expr.Lin.continuous {n} {e : Expr n} (h : e.Lin) : Continuous e.value := by
  induction h with
  | const c => exact continuous_const
  | var i => exact continuous_apply i
  | add _ _ h1 h2 => exact h1.add h2

/-! ### The jets are those of the updated parameters -/

theorem add_sjet {n} (f g : SJet n) : addSJ (.ok f) (.ok g) = .ok ⟨f.a + g.a, fun i => f.v i + g.v i⟩ := by
  show SJet.op2 .add f g = _
  unfold SJet.op2
  simp only [rule2]
  rw [if_neg (by rintro ⟨_, h⟩; exact h)]

theorem add_seed {n} (x : ℝ) (i : Fin n) :
    addSJ (.ok ⟨x, 0⟩) (.ok ⟨0, Function.update 0 i 1⟩) = .ok ⟨x, Function.update (0 : RVec n) i 1⟩ := by
  rw [add_sjet]; simp

theorem seedMat_eq {α : Type} (unit : Nat → α → Res α) (m : MatV α) (l : List α) (hl : m.data.length = l.length)
    (h : ∀ k (hk : k < m.data.length) (hk' : k < l.length), unit k m.data[k] = .ok l[k]) : seedMat unit m = .ok ⟨m.rows, m.cols, l⟩ := by
  unfold seedMat
  rw [updLoop_eq _ m.data l 0 hl]
  · rfl
  · intro k hk hk'
    have e : (0 + k) % m.rows + (0 + k) / m.rows * m.rows = k := by rw [Nat.zero_add, Nat.mul_comm]; exact Nat.mod_add_div _ _
    simp only [e]
    exact h k hk hk'

/-- seeding by hand gives the jets of the update -/
theorem seedS_eq (t : PTy) (n : Nat) (ht : t.sDims = some n) (ha : PTy.adOk t = true) (x : t.Val ℝ) (hx : t.WF x) :
    seedS t n x = t.plusEqBy addSJ (t.cast (fun a => (.ok ⟨a, 0⟩ : Out (SJet n))) x) (List.ofFn fun i : Fin n => .ok ⟨0, Function.update 0 i 1⟩) := by
  unfold seedS
  rw [if_pos ha]
  cases t with
  | scalar =>
    cases ht
    exact congrArg Res.ok (add_seed (n := 1) x 0).symm
  | mat r c =>
    have hl := flat_static (.mat r c) n ht x hx
    have hl' : (MatV.data x).length = n := hl
    have hn : n = MatV.rows x * MatV.cols x := by rw [← hl', hx.1]
    refine Eq.trans ?_ (if_pos (show (List.ofFn fun i : Fin n => (.ok ⟨0, Function.update 0 i 1⟩ : Out (SJet n))).length = MatV.rows x * MatV.cols x by simpa using hn)).symm
    refine seedMat_eq unitS (⟨MatV.rows x, MatV.cols x, (MatV.data x).map fun a => .ok ⟨a, 0⟩⟩ : MatV (Out (SJet n))) _ (by simp [hl', PTy.cast]) ?_
    intro k hk hk'
    have hkn : k < n := by simpa [hl'] using hk
    simp only [PTy.cast]
    rw [List.getElem_zipWith, List.getElem_map, List.getElem_ofFn, add_seed]
    simp only [unitS, dif_pos hkn]
  | vec t => rfl
  | arr m t => rfl
  | pair a b => rfl

/-- the coordinates of the parameters -/
def PTy.coords (t : PTy) (n : Nat) (x : t.Val ℝ) : RVec n := fun i => (t.flat x).getD i.val 0

/-- what the property asks for: the update is defined for all steps; the residuals are those at the parameters, and the Jacobian is the derivative of the residuals
of the updated parameters with respect to the step, at the step zero -/
def AlongUpdate {m} (t : PTy) (n : Nat) (x : t.Val ℝ) (e : Fin m → Expr n) (r : Option (RVec m × RMat m n)) : Prop :=
  ∃ upd : RVec n → t.Val ℝ, (∀ δ, t.plusEq x (List.ofFn δ) = .ok (upd δ)) ∧
    ∃ J, r = some (fun i => (e i).value (PTy.coords t n x), J) ∧ HasJac (fun δ i => (e i).value (PTy.coords t n (upd δ))) J 0

theorem getD_lt {α : Type} (l : List α) (d : α) {i : Nat} (h : i < l.length) : l.getD i d = l[i] := by
  rw [List.getD_eq_getElem?_getD, List.getElem?_eq_getElem h]
  rfl

theorem getD_map_lt {α β : Type} (f : α → β) (l : List α) (i : Nat) (h : i < l.length) (d : β) : (l.map f).getD i d = f l[i] := by
  rw [List.getD_eq_getElem?_getD, List.getElem?_map, List.getElem?_eq_getElem h]
  rfl

/-- **C72**, compile-time dimension: for every parameter type that can be differentiated automatically and has a compile-time dimension, and for all residuals
applied inside their domain, the Jacobian is the derivative along the update of the parameters. -/
theorem C72_static {m} (t : PTy) (n : Nat) (ht : t.sDims = some n) (ha : PTy.adOk t = true) (x : t.Val ℝ) (hx : t.WF x) (e : Fin m → Expr n)
    (he : ∀ i, (e i).InDomain (PTy.coords t n x)) : AlongUpdate t n x e (evalTy t n x e) := by
  have hc : t.compiles = true := by
    simp only [PTy.adOk, Bool.and_eq_true] at ha; exact ha.1.1
  let L := { e : Expr n // e.Lin }
  let opL : L → L → L := fun a b => ⟨.op2 .add a.1 b.1, .add a.2 b.2⟩
  let cL : ℝ → L := fun a => ⟨.const a, .const a⟩
  let x0 : t.Val L := t.cast cL x
  let d0 : List L := List.ofFn fun i : Fin n => ⟨.var i, .var i⟩
  obtain ⟨s, hs, hw⟩ := static_defined opL t n hc ht x0 (wf_cast cL t x hx) d0 (by simp [d0])
  have hsl : (t.flat s).length = n := flat_static t n ht s hw
  have hom : ∀ {G : Type} (op' : G → G → G) (h : L → G) (_ : ∀ a b, h (opL a b) = op' (h a) (h b)),
      t.plusEqBy op' (t.cast (fun a => h (cL a)) x) (List.ofFn fun i : Fin n => h ⟨.var i, .var i⟩) = .ok (t.cast h s) := by
    intro G op' h hh
    have := plusEqBy_cast opL op' h hh t x0 d0
    rw [hs, cast_cast] at this
    rw [show (List.ofFn fun i : Fin n => h ⟨.var i, .var i⟩) = d0.map h by simp [d0, List.map_ofFn, Function.comp_def]]
    exact this
  let S : Fin n → Expr n := fun j => ((t.flat s)[j.val]'(by rw [hsl]; exact j.2)).1
  have hupd : ∀ δ : RVec n, t.plusEq x (List.ofFn δ) = .ok (t.cast (fun a : L => a.1.value δ) s) := by
    intro δ
    have := hom (G := ℝ) FloatOps.add (fun a => a.1.value δ) (fun a b => rfl)
    rw [show t.cast (fun a => (cL a).1.value δ) x = x from cast_id t x] at this
    exact this
  have hcoord : ∀ δ : RVec n, PTy.coords t n (t.cast (fun a : L => a.1.value δ) s) = fun j => (S j).value δ := by
    intro δ
    funext j
    show (t.flat (t.cast _ s)).getD j.val 0 = _
    rw [C32_cast, getD_map_lt _ _ _ (by rw [hsl]; exact j.2)]
  have hseed : seedS t n x = .ok (t.cast (fun a : L => a.1.jet 0) s) := by
    rw [seedS_eq t n ht ha x hx]
    exact hom (G := Out (SJet n)) addSJ (fun a => a.1.jet 0) (fun a b => rfl)
  have hx0 : PTy.coords t n x = fun j => (S j).value 0 := by
    rw [← hcoord, plusEqBy_zero FloatOps.add t x _ hx _ ?_ (hupd 0)]
    intro e he a
    obtain ⟨i, rfl⟩ := List.mem_ofFn.mp he
    exact add_zero a
  have hev : evalTy t n x e = evalJac (fun i => (e i).subst S) 0 := by
    unfold evalTy
    rw [hseed]
    have : ∀ i, (e i).jetAt (fun j => (t.flat (t.cast (fun a : L => a.1.jet 0) s)).getD j.val .ub) = ((e i).subst S).jet 0 := by
      intro i
      rw [← jetAt_subst]
      congr 1
      funext j
      rw [C32_cast, getD_map_lt _ _ _ (by rw [hsl]; exact j.2)]
    simp only [this]
    rfl
  have hdom : ∀ i, ((e i).subst S).InDomain 0 := by
    intro i
    refine inDomain_subst S 0 (fun j => Expr.Lin.inDomain (Subtype.property _) 0) ?_ (e i) (hx0 ▸ he i)
    exact (continuous_pi fun j => Expr.Lin.continuous (Subtype.property _)).continuousAt
  obtain ⟨J, hJ, hJ'⟩ := C36_jacobian (fun i => (e i).subst S) 0 hdom
  refine ⟨fun δ => t.cast (fun a : L => a.1.value δ) s, hupd, J, ?_, ?_⟩
  · rw [hev, hJ]
    simp only [value_subst, hx0]
  · intro i
    refine (hJ' i).congr_eq fun y => ?_
    simp only [hcoord, value_subst]

/-! ### Run-time dimension -/

theorem djetAt_seed {n} (x : RVec n) (e : Expr n) : e.djetAt (fun j => .ok ⟨x j, List.ofFn (Pi.single j 1 : RVec n)⟩) = e.djet x := by
  induction e with
  | var i => rfl
  | const c => rfl
  | op1 o e ih => simp only [Expr.djetAt, Expr.djet, ih]
  | op2 o e₁ e₂ ih₁ ih₂ => simp only [Expr.djetAt, Expr.djet, ih₁, ih₂]
  | op3 o e₁ e₂ e₃ ih₁ ih₂ ih₃ => simp only [Expr.djetAt, Expr.djet, ih₁, ih₂, ih₃]

theorem set_zeros {n} (i : Fin n) : (List.replicate n (0 : ℝ)).set i.val 1 = List.ofFn (Pi.single i 1 : RVec n) := by
  apply List.ext_getElem
  · simp
  · intro k h1 h2
    rw [List.getElem_set, List.getElem_ofFn]
    by_cases h : i.val = k
    · rw [if_pos h]
      have : (⟨k, by simpa using h2⟩ : Fin n) = i := Fin.ext h.symm
      rw [this, Pi.single_eq_same]
    · rw [if_neg h, List.getElem_replicate, Pi.single_eq_of_ne]
      intro h'
      exact h (congrArg Fin.val h').symm

theorem add_djet (x : ℝ) (v : List ℝ) : addDJ (.ok ⟨x, []⟩) (.ok ⟨0, v⟩) = .ok ⟨x, v⟩ := by
  show DJet.op2 .add ⟨x, []⟩ ⟨0, v⟩ = _
  have e1 : orZeros [] v = List.replicate v.length 0 := if_neg (by simp)
  have e2 : orZeros v [] = v := by
    unfold orZeros
    split
    · rfl
    · rename_i h; simp at h; simp [h]
  have e3 : List.zipWith (fun u w : ℝ => u + w) (List.replicate v.length 0) v = v := by
    clear e1 e2
    induction v with
    | nil => rfl
    | cons a v ih => simp only [List.length_cons, List.replicate_succ, List.zipWith_cons_cons, ih, zero_add]
  simp only [DJet.op2, rule2, DJet.zip2, e1, e2, e3, List.length_replicate, ne_eq, not_true_eq_false, if_false, add_zero]
  rw [if_neg (by rintro ⟨_, _, h⟩; exact h)]

theorem seedD_flat (t : PTy) (hg : t.good = true) (ht : t.sDims = none) (ha : PTy.adOk t = true) (x : t.Val ℝ) (hx : t.WF x) :
    ∃ y, seedD t x = .ok y ∧ t.flat y = List.zipWith addDJ ((t.flat x).map fun a => (.ok ⟨a, []⟩ : Out DJet))
      (List.ofFn fun i : Fin (t.dims x) => .ok ⟨0, (List.replicate (t.dims x) 0).set i 1⟩) := by
  have hdim : t.dynDims x = t.dims x := by unfold PTy.dynDims; rw [ht]
  have gen : ∃ y, t.plusEqBy addDJ (t.cast (fun a => (.ok ⟨a, []⟩ : Out DJet)) x)
      (List.ofFn fun i : Fin (t.dims x) => .ok ⟨0, (List.replicate (t.dims x) 0).set i 1⟩) = .ok y ∧ t.flat y = List.zipWith addDJ
        ((t.flat x).map fun a => (.ok ⟨a, []⟩ : Out DJet)) (List.ofFn fun i : Fin (t.dims x) => .ok ⟨0, (List.replicate (t.dims x) 0).set i 1⟩) := by
    obtain ⟨y, y1, -, -, y4⟩ := plusEqBy_adds addDJ t hg _ (wf_cast (fun a => (.ok ⟨a, []⟩ : Out DJet)) t x hx)
      (List.ofFn fun i : Fin (t.dims x) => .ok ⟨0, (List.replicate (t.dims x) 0).set i 1⟩) (by rw [dims_cast]; simp)
    exact ⟨y, y1, by rw [y4, C32_cast]⟩
  unfold seedD
  simp only [hdim]
  rw [if_pos ha]
  cases t with
  | scalar => cases ht
  | mat r c =>
    have hn : (MatV.data x).length = (PTy.mat r c).dims x := hx.1
    refine ⟨(⟨MatV.rows x, MatV.cols x, _⟩ : MatV (Out DJet)), seedMat_eq _
      (⟨MatV.rows x, MatV.cols x, (MatV.data x).map fun a => .ok ⟨a, []⟩⟩ : MatV (Out DJet)) _ ?_ ?_, rfl⟩
    · simp [hn, PTy.flat]
    · intro k hk hk'
      have hkn : k < (PTy.mat r c).dims x := by simpa [hn] using hk
      simp only [PTy.flat]
      rw [List.getElem_zipWith, List.getElem_map, List.getElem_ofFn, add_djet]
      simp only [unitD, if_pos hkn]
  | vec t => exact gen
  | arr m t => exact gen
  | pair a b => exact gen

theorem hasGrad_shift {n} {f : RVec n → ℝ} {J x : RVec n} : HasGrad (fun δ => f (x + δ)) J 0 ↔ HasGrad f J x := by
  unfold HasGrad
  rw [hasFDerivAt_comp_add_left, add_zero]

/-- the coordinates of the updated parameters -/
theorem coords_plus (t : PTy) (n : Nat) (hg : t.good = true) (x : t.Val ℝ) (hx : t.WF x) (hn : t.dims x = n) (δ : RVec n) (y : t.Val ℝ)
    (h : t.plusEq x (List.ofFn δ) = .ok y) : PTy.coords t n y = PTy.coords t n x + δ := by
  obtain ⟨z, z1, -, -, z4⟩ := C32_plusEq_partial t hg x hx (List.ofFn δ) (by simp [hn])
  obtain rfl : z = y := by rw [h] at z1; injection z1 with z1; exact z1.symm
  have hl : (t.flat x).length = n := by rw [← hn, C32_dims t x hx]
  funext i
  show (t.flat z).getD i.val 0 = (t.flat x).getD i.val 0 + δ i
  rw [z4, getD_lt _ _ (by simp [hl]), getD_lt _ _ (by simp [hl]), List.getElem_zipWith, List.getElem_ofFn]
  rfl

/-- **C72** (partial), run-time dimension: the same for the types of run-time dimension that can be differentiated automatically, with the check of the residuals.
Missing: the types whose update is wrong (`good`, see C32), and the residuals for which the jets of run-time dimension are wrong (`Safe`, see C37). -/
theorem C72_dynamic_partial {m} (t : PTy) (n : Nat) (ht : t.sDims = none) (hg : t.good = true) (ha : PTy.adOk t = true) (x : t.Val ℝ) (hx : t.WF x)
    (hn : t.dims x = n) (e : Fin m → Expr n) (he : ∀ i, (e i).InDomain (PTy.coords t n x)) (hs : ∀ i, (e i).Safe (PTy.coords t n x)) :
    AlongUpdate t n x e (evalTyD true t n x e) := by
  subst hn
  have hl : (t.flat x).length = t.dims x := (C32_dims t x hx).symm
  obtain ⟨y, hy, hf⟩ := seedD_flat t hg ht ha x hx
  have hev : evalTyD true t (t.dims x) x e = evalJacD true e (PTy.coords t (t.dims x) x) := by
    unfold evalTyD
    rw [hy]
    have : ∀ i, (e i).djetAt (fun j => (t.flat y).getD j.val .ub) = (e i).djet (PTy.coords t (t.dims x) x) := by
      intro i
      rw [← djetAt_seed]
      congr 1
      funext j
      rw [hf, getD_lt _ _ (by simp [hl]), List.getElem_zipWith, List.getElem_map, List.getElem_ofFn, add_djet, set_zeros]
      congr 2
      show _ = (t.flat x).getD j.val 0
      rw [getD_lt _ _ (by simp [hl])]
    simp only [this]
    rfl
  obtain ⟨J, hJ, hJ'⟩ := C36_jacobian e _ he
  have hupd : ∀ δ : RVec (t.dims x), ∃ z, t.plusEq x (List.ofFn δ) = .ok z := fun δ => by
    obtain ⟨z, z1, -⟩ := C32_plusEq_partial t hg x hx (List.ofFn δ) (by simp)
    exact ⟨z, z1⟩
  choose upd hupd using hupd
  refine ⟨upd, hupd, J, by rw [hev, C37_eval_partial e _ _ hJ hs], ?_⟩
  intro i
  refine (hasGrad_shift.mpr (hJ' i)).congr_eq fun δ => ?_
  simp only [coords_plus t _ hg x hx rfl δ _ (hupd δ)]

/-- **C72**, coordinates: where the update adds the step to the coordinates (the types `good` of C32), the Jacobian is the one with respect to the coordinates, in their
order. -/
theorem C72_coordinates {m} (t : PTy) (n : Nat) (hg : t.good = true) (x : t.Val ℝ) (hx : t.WF x) (hn : t.dims x = n) (e : Fin m → Expr n)
    (r : Option (RVec m × RMat m n)) (h : AlongUpdate t n x e r) :
    ∃ J, r = some (fun i => (e i).value (PTy.coords t n x), J) ∧ HasJac (fun y i => (e i).value y) J (PTy.coords t n x) := by
  obtain ⟨upd, hupd, J, h1, h2⟩ := h
  refine ⟨J, h1, fun i => hasGrad_shift.mp ?_⟩
  refine (h2 i).congr_eq fun δ => ?_
  simp only [coords_plus t _ hg x hx hn δ _ (hupd δ)]

/-! ### A violation: pairs -/

theorem HasGrad.eq_zero_of_const {n} {f : RVec n → ℝ} {J x : RVec n} (h : HasGrad f J x) {c : ℝ} (hc : ∀ y, f y = c) : J = 0 :=
  h.zero_of_locConst (c := c) (Eventually.of_forall hc)

/-- The derivatives with respect to the coordinates of the second component of a pair are lost, for every pair of compile-time dimension: the residual that is the
coordinate `j` of the second component has a zero row (the update changes the first component instead, see `C32_pair_wrong`). -/
theorem C72_pair_wrong (a : PTy) (p : Nat) (hp : a.sDims = some p) (ha : PTy.adOk (.pair a a) = true) (x : (PTy.pair a a).Val ℝ) (hx : (PTy.pair a a).WF x)
    (j : Fin (p + p)) (hj : p ≤ j.val) :
    evalTy (PTy.pair a a) (p + p) x (fun _ : Fin 1 => .var j) = some (fun _ => PTy.coords (.pair a a) (p + p) x j, 0) ∧
      HasJac (fun (y : RVec (p + p)) (_ : Fin 1) => y j) (fun _ => Pi.single j 1) (PTy.coords (.pair a a) (p + p) x) := by
  have hs : (PTy.pair a a).sDims = some (p + p) := by simp only [PTy.sDims, hp]
  have hc : (PTy.pair a a).compiles = true := by
    simp only [PTy.adOk, Bool.and_eq_true] at ha; exact ha.1.1
  obtain ⟨upd, hupd, J, h1, h2⟩ := C72_static (.pair a a) (p + p) hs ha x hx (fun _ : Fin 1 => .var j) (fun _ => trivial)
  have hsnd : ∀ y : (PTy.pair a a).Val ℝ, (PTy.pair a a).WF y → PTy.coords (.pair a a) (p + p) y j = (a.flat y.2).getD (j.val - p) 0 := by
    intro y hy
    show (a.flat y.1 ++ a.flat y.2).getD j.val 0 = _
    have hl := flat_static a p hp y.1 hy.1
    rw [List.getD_eq_getElem?_getD, List.getD_eq_getElem?_getD, List.getElem?_append_right (by omega), hl]
  have hconst : ∀ δ, PTy.coords (.pair a a) (p + p) (upd δ) j = PTy.coords (.pair a a) (p + p) x j := by
    intro δ
    obtain ⟨y, y1, y2⟩ := static_defined FloatOps.add (.pair a a) (p + p) hc hs x hx (List.ofFn δ) (by simp)
    obtain rfl : upd δ = y := by
      have := hupd δ
      rw [show (PTy.pair a a).plusEq x (List.ofFn δ) = .ok y from y1] at this
      injection this with this
      exact this.symm
    rw [hsnd _ y2, hsnd _ hx, C32_pair_wrong a a hp x _ _ y1]
  refine ⟨?_, fun _ => ?_⟩
  · rw [h1]
    have : J = 0 := funext fun i => HasGrad.eq_zero_of_const (h2 i) (c := PTy.coords (.pair a a) (p + p) x j) hconst
    rw [this]
    rfl
  · exact hasGrad_coord j _

/-- Which types cannot be differentiated automatically although they can be optimized: pairs with a scalar component (their update with jets does not compile) and
vectors and arrays of anything that is not a scalar (their `Scalar` is not a number). -/
theorem C72_unavailable (t : PTy) (n : Nat) :
    PTy.adOk (.pair .scalar t) = false ∧ PTy.adOk (.pair t .scalar) = false ∧ (t ≠ .scalar → PTy.adOk (.vec t) = false ∧ PTy.adOk (.arr n t) = false) ∧
      PTy.compiles (.pair .scalar .scalar) = true ∧ PTy.compiles (.vec (.mat (some 2) (some 1))) = true := by
  refine ⟨?_, ?_, fun h => ⟨?_, ?_⟩, by decide, by decide⟩
  · simp [PTy.adOk, PTy.jetPlus]
  · simp [PTy.adOk, PTy.jetPlus]
  · simp [PTy.adOk, PTy.scalarFl, h]
  · simp [PTy.adOk, PTy.scalarFl, h]

/-! ### Examples meeting the hypotheses -/

/-- `std::array<double, 3>` -/
def arr3 : PTy := .arr 3 .scalar

/-- `std::pair<std::vector<double>, std::vector<Vector2d>>` -/
def vecPair : PTy := .pair (.vec .scalar) (.vec (.mat (some 2) (some 1)))

/-- the product of the first and the third coordinate of an array, at (2, 5, 7) -/
example : arr3.sDims = some 3 ∧ PTy.adOk arr3 = true ∧ arr3.WF ([2, 5, 7] : List ℝ) ∧
    (Expr.op2 (n := 3) .mul (.var 0) (.var 2)).InDomain (PTy.coords arr3 3 ([2, 5, 7] : List ℝ)) :=
  ⟨rfl, by decide, ⟨rfl, fun _ _ => trivial⟩, trivial, trivial, Or.inl trivial⟩

/-- a quotient of coordinates of a vector and of a vector of matrices -/
example : vecPair.sDims = none ∧ vecPair.good = true ∧ PTy.adOk vecPair = true ∧
    vecPair.WF (([3] : List ℝ), ([⟨2, 1, [4, 5]⟩] : List (MatV ℝ))) ∧ vecPair.dims (([3] : List ℝ), ([⟨2, 1, [4, 5]⟩] : List (MatV ℝ))) = 3 ∧
    (Expr.op2 (n := 3) .div (.var 0) (.var 2)).InDomain (PTy.coords vecPair 3 (([3] : List ℝ), ([⟨2, 1, [4, 5]⟩] : List (MatV ℝ)))) ∧
    (Expr.op2 (n := 3) .div (.var 0) (.var 2)).Safe (PTy.coords vecPair 3 (([3] : List ℝ), ([⟨2, 1, [4, 5]⟩] : List (MatV ℝ)))) := by
  refine ⟨rfl, by decide, by decide, ⟨fun _ _ => trivial, ?_⟩, rfl, ⟨trivial, trivial, Or.inl ?_⟩, trivial, trivial, trivial⟩
  · intro y hy
    have h : ∀ y : MatV ℝ, y ∈ ([⟨2, 1, [4, 5]⟩] : List (MatV ℝ)) → y = ⟨2, 1, [4, 5]⟩ := by simp
    obtain rfl : y = (⟨2, 1, [4, 5]⟩ : MatV ℝ) := h y hy
    exact ⟨rfl, fun k h => by cases h; rfl, fun k h => by cases h; rfl⟩
  · show (5 : ℝ) ≠ 0
    norm_num

/-- `std::pair<Vector2d, Vector2d>` -/
example : (PTy.mat (some 2) (some 1)).sDims = some 2 ∧ PTy.adOk (.pair (.mat (some 2) (some 1)) (.mat (some 2) (some 1))) = true ∧
    (PTy.pair (.mat (some 2) (some 1)) (.mat (some 2) (some 1))).WF (((⟨2, 1, [1, 2]⟩ : MatV ℝ), (⟨2, 1, [3, 4]⟩ : MatV ℝ))) :=
  ⟨rfl, by decide, ⟨rfl, fun k h => by cases h; rfl, fun k h => by cases h; rfl⟩, rfl, fun k h => by cases h; rfl, fun k h => by cases h; rfl⟩

end Loss
end Verif
