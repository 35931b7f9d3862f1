import Verif.Model.Basic
/-!
# Parameter types (traits.h): dimensions, update, cast

A universe of parameter types built from scalars, Eigen matrices, `std::vector`, `std::array` and
`std::pair`.  `none` stands for `Dynamic`.  Sizes are natural numbers: `int` overflow of a dimension is not modelled.
User classes (the primary template, traits.h:60-148, which relies on their own `+=`) and sparse matrices are not modelled.
-/

namespace Verif
open FloatOps

/-- parameter types -/
inductive PTy where
  /-- `float`, `double`, traits.h:150-164 -/
  | scalar
  /-- dense Eigen matrix or array with compile-time sizes, traits.h:167-191 -/
  | mat (r c : Option Nat)
  /-- `std::vector<t>`, traits.h:218-260 -/
  | vec (t : PTy)
  /-- `std::array<t, n>`, traits.h:263-308 -/
  | arr (n : Nat) (t : PTy)
  /-- `std::pair<a, b>`, traits.h:311-349 -/
  | pair (a b : PTy)
  deriving DecidableEq

/-- a dense matrix: sizes and coefficients in column-major order -/
structure MatV (F : Type) where
  rows : Nat
  cols : Nat
  data : List F

/-- values of a parameter type with scalars `F` -/
def PTy.Val (F : Type) : PTy → Type
  | scalar => F
  | mat _ _ => MatV F
  | vec t => List (t.Val F)
  | arr _ t => List (t.Val F)
  | pair a b => a.Val F × b.Val F

/-- a run-time size agrees with the compile-time one -/
def sizeOk (s : Option Nat) (n : Nat) : Prop := ∀ k, s = some k → n = k

/-- the values that exist in C++: matrices have as many coefficients as their sizes say, compile-time sizes are respected -/
def PTy.WF {F : Type} : (t : PTy) → t.Val F → Prop
  | scalar, _ => True
  | mat r c, (m : MatV F) => m.data.length = m.rows * m.cols ∧ sizeOk r m.rows ∧ sizeOk c m.cols
  | vec t, (l : List (t.Val F)) => ∀ x ∈ l, t.WF x
  | arr n t, (l : List (t.Val F)) => l.length = n ∧ ∀ x ∈ l, t.WF x
  | pair a b, (p : a.Val F × b.Val F) => a.WF p.1 ∧ b.WF p.2

/-- `params_trait<T>::Dims`: traits.h:153, 171-174, 223, 268-271, 317-320 -/
def PTy.sDims : PTy → Option Nat
  | scalar => some 1
  | mat r c => match r, c with
    | some r, some c => some (r * c)
    | _, _ => none
  | vec _ => none
  | arr n t => match t.sDims with
    | none => none
    | some d => some (n * d)
  | pair a b => match a.sDims, b.sDims with
    | some d, some e => some (d + e)
    | _, _ => none

/-- `params_trait<T>::dims(v)`: traits.h:155, 176, 225-236, 273-284, 323-325 -/
def PTy.dims {F : Type} : (t : PTy) → t.Val F → Nat
  | scalar, _ => 1
  | mat _ _, (m : MatV F) => m.rows * m.cols
  | vec t, (l : List (t.Val F)) =>
    if t = .scalar ∨ t.sDims = some 1 then l.length
    else match t.sDims with
      | none => l.foldl (fun d x => d + t.dims x) 0
      | some d => l.length * d
  | arr n t, (l : List (t.Val F)) =>
    if t = .scalar ∨ t.sDims = some 1 then n
    else match t.sDims with
      | none => l.foldl (fun d x => d + t.dims x) 0
      | some d => l.length * d
  | pair a b, (p : a.Val F × b.Val F) => a.dims p.1 + b.dims p.2

/-- `DynDims(x)`, traits.h:352-359 -/
def PTy.dynDims {F : Type} (t : PTy) (x : t.Val F) : Nat :=
  match t.sDims with
  | none => t.dims x
  | some d => d

/-- Eigen's `delta.segment(start, len)`: undefined when out of range -/
def seg {F : Type} (d : List F) (start len : Nat) : Res (List F) :=
  if start + len ≤ d.length then .ok ((d.drop start).take len) else .ub

/-- a loop `for (i = ..; i < v.size(); ++i)` that updates `v[i]` -/
def updLoop {α : Type} (f : Nat → α → Res α) : Nat → List α → Res (List α)
  | _, [] => .ok []
  | i, x :: l => (f i x).bind fun y => (updLoop f (i + 1) l).bind fun l' => .ok (y :: l')

section
variable {F : Type}

/-- `params_trait<T>::PlusEq(v, delta)` for the types for which it compiles (see `PTy.compiles`):
scalars traits.h:162, matrices 184-190 (both forms add coefficient-wise in column-major order and need equal
sizes), vectors 248-259, arrays 296-307, pairs 339-348.
The places where the code does not compile return `ub`; they are excluded by `PTy.compiles`.
`op` is the addition of two scalars (which may be jets). -/
def PTy.plusEqBy (op : F → F → F) : (t : PTy) → t.Val F → List F → Res (t.Val F)
  | scalar, (x : F), d => match d with
    | [] => .ub
    | e :: _ => (.ok (op x e) : Res F)
  | mat _ _, (m : MatV F), d =>
    if d.length = m.rows * m.cols then .ok ({ m with data := List.zipWith op m.data d } : MatV F) else .ub
  | vec t, (l : List (t.Val F)), d => updLoop (fun i x => elemUpd t (t.plusEqBy op) i x d) 0 l
  | arr _ t, (l : List (t.Val F)), d => updLoop (fun i x => elemUpd t (t.plusEqBy op) i x d) 0 l
  | pair a b, (p : a.Val F × b.Val F), d =>
    let first := match a.sDims with
      | none => (seg d 0 (a.dims p.1)).bind fun h => a.plusEqBy op p.1 h
      | some n => (seg d 0 n).bind fun h => a.plusEqBy op p.1 h
    first.bind fun x =>
      match b.sDims with
      | none => if b.dims p.2 ≤ d.length then
          (b.plusEqBy op p.2 (d.drop (d.length - b.dims p.2))).bind fun y => .ok ((x, y) : a.Val F × b.Val F)
        else .ub
      | some n =>
        -- traits.h:347: the second update is applied to `v.first`
        if h : a = b then
          if n ≤ d.length then
            (b.plusEqBy op (h ▸ x) (d.drop (d.length - n))).bind fun y => .ok ((h ▸ y, p.2) : a.Val F × b.Val F)
          else .ub
        else .ub
where
  /-- one round of the loops of vectors and arrays, traits.h:249-258 and 297-306 -/
  elemUpd (t : PTy) (rec : t.Val F → List F → Res (t.Val F)) (i : Nat) (x : t.Val F) (d : List F) : Res (t.Val F) :=
    match t, rec, x with
    | .scalar, _, (x : F) => match d[i]? with
      | some e => (.ok (op x e) : Res F)
      | none => .ub
    | t, rec, x =>
      if t.sDims = some 1 then .ub
      else match t.sDims with
        | some n => (seg d (i * n) n).bind fun s => rec x s
        -- traits.h:256 and 304
        | none => (seg d i (i * t.dims x)).bind fun s => rec x s

/-- the same with numbers -/
abbrev PTy.plusEq [FloatOps F] (t : PTy) (x : t.Val F) (d : List F) : Res (t.Val F) := t.plusEqBy add x d

/-- `params_trait<T>::cast<T2>(v)` with the scalar conversion `f`: traits.h:158-161, 179-182, 238-246, 287-294, 327-336 -/
def PTy.cast {G : Type} (f : F → G) : (t : PTy) → t.Val F → t.Val G
  | scalar, (x : F) => f x
  | mat _ _, (m : MatV F) => (⟨m.rows, m.cols, m.data.map f⟩ : MatV G)
  | vec t, (l : List (t.Val F)) => (l.map (t.cast f) : List (t.Val G))
  | arr _ t, (l : List (t.Val F)) => (l.map (t.cast f) : List (t.Val G))
  | pair a b, (p : a.Val F × b.Val F) => ((a.cast f p.1, b.cast f p.2) : a.Val G × b.Val G)

end

/-- The types for which `PlusEq` compiles.  Elements of vectors and arrays with `Dims == 1` are updated with
`v[i] += delta[i]` and must be scalars (traits.h:250-251, 298-299); in a pair with a static second type both types
must be equal (traits.h:347). -/
def PTy.compiles : PTy → Bool
  | scalar => true
  | mat _ _ => true
  | vec t => t.compiles && (t == .scalar || !(t.sDims == some 1))
  | arr _ t => t.compiles && (t == .scalar || !(t.sDims == some 1))
  | pair a b => a.compiles && b.compiles && (b.sDims == none || a == b)

end Verif
