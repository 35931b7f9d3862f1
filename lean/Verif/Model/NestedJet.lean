import Verif.Model.Jet
/-!
# Jets of jets

The functions of `jet.h` are templates over the scalar type `T`, which can be a jet itself (jet.h:425-431, internal/jet_traits.h:105-117: `AsScalar` unwraps them). Here they are
written once for any `T` that has the operations, so they apply to jets of numbers, to jets of jets, and so on.

`none` stands for a value that is not finite. `T(c)` with a number `c` is `const c`: it compiles for numbers and for jets of numbers, which is enough for jets of jets; deeper
ones need the conversions that the constructor (jet.h:231-235, `explicit`) does not do. Modelled: the operators, and the functions listed in `Fn` and `Bin`. The products of the factor and
the infinitesimal part are written with the factor first (jet.h has both orders).
-/

namespace Verif
namespace Loss

/-- functions of one jet -/
inductive Fn
  | log | log10 | log1p | exp | expm1 | sqrt | cos | acos | sin | asin | tan | atan | sinh | cosh | tanh | cbrt | exp2 | log2 | erf | erfc | norm | powC (p : ℝ)

/-- functions of two jets -/
inductive Bin
  | hypot | atan2

/-- the function in `Model/Jet` -/
def Fn.op : Fn → Op1
  | .log => .log | .log10 => .log10 | .log1p => .log1p | .exp => .exp | .expm1 => .expm1 | .sqrt => .sqrt | .cos => .cos | .acos => .acos | .sin => .sin | .asin => .asin
  | .tan => .tan | .atan => .atan | .sinh => .sinh | .cosh => .cosh | .tanh => .tanh | .cbrt => .cbrt | .exp2 => .exp2 | .log2 => .log2 | .erf => .erf | .erfc => .erfc
  | .norm => .norm | .powC p => .powC p

def Bin.op : Bin → Op2
  | .hypot => .hypot | .atan2 => .atan2

/-- code over a type of scalars: `m` variables, numbers converted to the type, operators and functions -/
inductive NExpr (m : Nat)
  | var (i : Fin m)
  | const (c : ℝ)
  | neg (e : NExpr m)
  | add (e e' : NExpr m)
  | sub (e e' : NExpr m)
  | mul (e e' : NExpr m)
  | div (e e' : NExpr m)
  | fn (o : Fn) (e : NExpr m)
  | bin (o : Bin) (e e' : NExpr m)

/-- what the templates need of the type `T` -/
class JOps (T : Type) where
  const : ℝ → T
  neg : T → T
  add : T → T → T
  sub : T → T → T
  mul : T → T → T
  div : T → T → Option T
  fn : Fn → T → Option T
  bin : Bin → T → T → Option T

/-- running the code -/
def NExpr.eval {T : Type} [JOps T] {m : Nat} (env : Fin m → T) : NExpr m → Option T
  | .var i => some (env i)
  | .const c => some (JOps.const c)
  | .neg e => (e.eval env).map JOps.neg
  | .add e e' => (e.eval env).bind fun a => (e'.eval env).map fun b => JOps.add a b
  | .sub e e' => (e.eval env).bind fun a => (e'.eval env).map fun b => JOps.sub a b
  | .mul e e' => (e.eval env).bind fun a => (e'.eval env).map fun b => JOps.mul a b
  | .div e e' => (e.eval env).bind fun a => (e'.eval env).bind fun b => JOps.div a b
  | .fn o e => (e.eval env).bind fun a => JOps.fn o a
  | .bin o e e' => (e.eval env).bind fun a => (e'.eval env).bind fun b => JOps.bin o a b

/-- numbers -/
noncomputable instance : JOps ℝ where
  const := id
  neg := fun a => -a
  add := fun a b => a + b
  sub := fun a b => a - b
  mul := fun a b => a * b
  div := fun a b => if b = 0 then none else some (a / b)
  fn := fun o a => (rule1 o.op a).map Rule1.val
  bin := fun o a b => (rule2 o.op a b).map Rule2.val

/-- `Jet<T, N>`, jet.h:216-301 -/
structure NJet (T : Type) (n : Nat) where
  a : T
  v : Fin n → T

/-- the factor of the infinitesimal part, computed from `f.a` (the variable) -/
noncomputable def Fn.factor : Fn → NExpr 1
  /- jet.h:606-609 -/
  | .log => .div (.const 1) (.var 0)
  /- jet.h:613-617 -/
  | .log10 => .div (.const 1) (.mul (.var 0) (.fn .log (.const 10)))
  /- jet.h:621-624 -/
  | .log1p => .div (.const 1) (.add (.const 1) (.var 0))
  /- jet.h:628-631 -/
  | .exp => .fn .exp (.var 0)
  /- jet.h:635-639 -/
  | .expm1 => .add (.fn .expm1 (.var 0)) (.const 1)
  /- jet.h:643-647 -/
  | .sqrt => .div (.const 1) (.mul (.const 2) (.fn .sqrt (.var 0)))
  /- jet.h:651-653 -/
  | .cos => .neg (.fn .sin (.var 0))
  /- jet.h:657-660 -/
  | .acos => .div (.neg (.const 1)) (.fn .sqrt (.sub (.const 1) (.mul (.var 0) (.var 0))))
  /- jet.h:664-666 -/
  | .sin => .fn .cos (.var 0)
  /- jet.h:670-673 -/
  | .asin => .div (.const 1) (.fn .sqrt (.sub (.const 1) (.mul (.var 0) (.var 0))))
  /- jet.h:677-681 -/
  | .tan => .add (.const 1) (.mul (.fn .tan (.var 0)) (.fn .tan (.var 0)))
  /- jet.h:685-688 -/
  | .atan => .div (.const 1) (.add (.const 1) (.mul (.var 0) (.var 0)))
  /- jet.h:692-694 -/
  | .sinh => .fn .cosh (.var 0)
  /- jet.h:698-700 -/
  | .cosh => .fn .sinh (.var 0)
  /- jet.h:704-708 -/
  | .tanh => .sub (.const 1) (.mul (.fn .tanh (.var 0)) (.fn .tanh (.var 0)))
  /- jet.h:732-735 -/
  | .cbrt => .div (.const 1) (.mul (.const 3) (.fn .cbrt (.mul (.var 0) (.var 0))))
  /- jet.h:739-743 -/
  | .exp2 => .mul (.fn .exp2 (.var 0)) (.fn .log (.const 2))
  /- jet.h:747-750 -/
  | .log2 => .div (.const 1) (.mul (.var 0) (.fn .log (.const 2)))
  /- jet.h:890-899 -/
  | .erf => .mul (.fn .exp (.mul (.neg (.var 0)) (.var 0))) (.div (.const 1) (.fn .sqrt (.fn .atan (.const 1))))
  /- jet.h:904-908 -/
  | .erfc => .neg (.mul (.fn .exp (.mul (.neg (.var 0)) (.var 0))) (.div (.const 1) (.fn .sqrt (.fn .atan (.const 1)))))
  /- jet.h:1251-1253 -/
  | .norm => .mul (.const 2) (.var 0)
  /- jet.h:1258-1261; when `f.a` is a jet the exponent `g - T(1.0)` is a jet without infinitesimal part -/
  | .powC p => .mul (.const p) (.fn (.powC (p - 1)) (.var 0))

/-- the factors of the infinitesimal parts of the arguments -/
noncomputable def Bin.factors : Bin → NExpr 2 × NExpr 2
  /- jet.h:757-765 -/
  | .hypot => (.div (.var 0) (.bin .hypot (.var 0) (.var 1)), .div (.var 1) (.bin .hypot (.var 0) (.var 1)))
  /- jet.h:1223-1237, the arguments are `(g, f)` -/
  | .atan2 => (.mul (.div (.const 1) (.add (.mul (.var 1) (.var 1)) (.mul (.var 0) (.var 0)))) (.var 1),
      .mul (.div (.const 1) (.add (.mul (.var 1) (.var 1)) (.mul (.var 0) (.var 0)))) (.neg (.var 0)))

/-- jets of `T` -/
noncomputable instance {T : Type} [JOps T] {n : Nat} : JOps (NJet T n) where
  /- jet.h:231-235 -/
  const := fun c => ⟨JOps.const c, fun _ => JOps.const 0⟩
  /- jet.h:314-316 -/
  neg := fun f => ⟨JOps.neg f.a, fun i => JOps.neg (f.v i)⟩
  /- jet.h:320-328 -/
  add := fun f g => ⟨JOps.add f.a g.a, fun i => JOps.add (f.v i) (g.v i)⟩
  /- jet.h:344-352 -/
  sub := fun f g => ⟨JOps.sub f.a g.a, fun i => JOps.sub (f.v i) (g.v i)⟩
  /- jet.h:368-376 -/
  mul := fun f g => ⟨JOps.mul f.a g.a, fun i => JOps.add (JOps.mul f.a (g.v i)) (JOps.mul (f.v i) g.a)⟩
  /- jet.h:392-409 -/
  div := fun f g => (JOps.div (JOps.const 1) g.a).map fun gi =>
    let q := JOps.mul f.a gi
    ⟨q, fun i => JOps.mul (JOps.sub (f.v i) (JOps.mul q (g.v i))) gi⟩
  fn := fun o f => (JOps.fn o f.a).bind fun a => (o.factor.eval fun _ => f.a).map fun d => ⟨a, fun i => JOps.mul d (f.v i)⟩
  bin := fun o f g => (JOps.bin o f.a g.a).bind fun a => (o.factors.1.eval ![f.a, g.a]).bind fun d => (o.factors.2.eval ![f.a, g.a]).map fun d' =>
    ⟨a, fun i => JOps.add (JOps.mul d (f.v i)) (JOps.mul d' (g.v i))⟩

/-- jets of jets of …, `k` times, of `n` parameters -/
def Tower (n : Nat) : Nat → Type
  | 0 => ℝ
  | k + 1 => NJet (Tower n k) n

noncomputable instance Tower.ops (n : Nat) : (k : Nat) → JOps (Tower n k)
  | 0 => inferInstanceAs (JOps ℝ)
  | k + 1 => have := Tower.ops n k; inferInstanceAs (JOps (NJet (Tower n k) n))

/-- the parameters as jets at every level: `Jet(value, k)`, jet.h:238-243 -/
noncomputable def Tower.seed {n : Nat} (x : RVec n) : (k : Nat) → Fin n → Tower n k
  | 0, i => x i
  | k + 1, i => (⟨Tower.seed x k i, fun j => JOps.const (if j = i then 1 else 0)⟩ : NJet (Tower n k) n)

/-- a coefficient: level by level `.v[i]` for `some i`, `.a` for `none` and after the end of the list -/
def Tower.coeff {n : Nat} : (k : Nat) → Tower n k → List (Option (Fin n)) → ℝ
  | 0, (J : ℝ), _ => J
  | k + 1, (J : NJet (Tower n k) n), [] => Tower.coeff k J.a []
  | k + 1, (J : NJet (Tower n k) n), none :: p => Tower.coeff k J.a p
  | k + 1, (J : NJet (Tower n k) n), some i :: p => Tower.coeff k (J.v i) p

end Loss
end Verif
