/-!
# `tinyopt::format2`, the formatter of C++17 builds

`include/tinyopt/log.h:39-67`. Strings are lists of characters (of bytes in C++: the only characters that matter are the braces, and no byte of a multi-byte UTF-8
character equals them). The conversion of the arguments to strings (log.h:69-84) is not modelled: the arguments are arbitrary strings.
-/

namespace Verif

/-- what a call of `format2` does: it returns a string, throws `std::out_of_range` (log.h:48) or `std::invalid_argument` (log.h:54, 61), or reads outside
of the string (undefined behaviour) -/
inductive FmtOut
  | ok (s : List Char)
  | notEnough
  | invalid
  | tooMany
  | ub
  deriving DecidableEq

/-- `format_string[i]` of a `const std::string`: the position after the last character holds the character 0; beyond it the behaviour is undefined -/
def charAt (s : List Char) (i : Nat) : Option Char :=
  if h : i < s.length then some s[i] else if i = s.length then some (Char.ofNat 0) else none

/-- `while (format_string[++i] != '}' && i < format_string.size()) {}`, log.h:52-53: the value of `i` after the loop -/
def skipTo (s : List Char) (i : Nat) : Option Nat :=
  match charAt s (i + 1) with
  | none => none
  | some c => if c ≠ '}' ∧ i + 1 < s.length then skipTo s (i + 1) else some (i + 1)
termination_by s.length - i

theorem skipTo_gt (s : List Char) (i : Nat) {j : Nat} (h : skipTo s i = some j) : i < j := by
  induction hd : s.length - i using Nat.strongRecOn generalizing i with
  | ind d ih =>
    unfold skipTo at h
    split at h
    · cases h
    · split at h
      · next hc => exact Nat.lt_of_succ_lt (ih (s.length - (i + 1)) (by omega) (i + 1) h rfl)
      · cases h; omega

/-- the loop of `format2`, log.h:44-57, and its end, log.h:60-64: `i` is the index in the format string, `k` is `arg_index`, `out` is `result` -/
def fmtLoop (s : List Char) (args : List (List Char)) (i k : Nat) (out : List Char) : FmtOut :=
  if i < s.length then
    match charAt s i with
    | none => .ub
    | some c =>
      if c = '{' then
        match args[k]? with
        | none => .notEnough
        | some a =>
          match _h : skipTo s i with
          | none => .ub
          | some j => fmtLoop s args (j + 1) (k + 1) (out ++ a)
      else if c = '}' then .invalid
      else fmtLoop s args (i + 1) k (out ++ [c])
  else if k < args.length then .tooMany
  else .ok out
termination_by s.length - i
decreasing_by
  · have := skipTo_gt s i _h; omega
  · omega

/-- `tinyopt::format2`, log.h:40-67 -/
def format2 (s : List Char) (args : List (List Char)) : FmtOut := fmtLoop s args 0 0 []

/-- All calls of `TINYOPT_LOG` and `TINYOPT_FORMAT_NS::format` under `include/tinyopt`: where, the format string and the number of arguments. -/
def libFormats : List (String × String × Nat) :=
  [("solvers/gn.h:34", "Warning: LDLT must be used with Sparse Matrices", 0),
   ("solvers/gn.h:89", "Need to resize the system", 0),
   ("solvers/gn.h:135", "❌ Hessian has very low diagonal coefficients", 0),
   ("solvers/gn.h:166", "❌ Failed solve linear system", 0),
   ("solvers/gn.h:167", "grad = \n{}", 1),
   ("solvers/gn.h:168", "H = \n{}", 1),
   ("solvers/lm.h:40", "Warning: LDLT must be used with Sparse Matrices", 0),
   ("solvers/lm.h:74", "❌ Failed to accumulate residuals: {}", 1),
   ("solvers/lm.h:84", "❌ Hessian has very low diagonal coefficients", 0),
   ("solvers/lm.h:102", "❌ Failed to accumulate residuals", 0),
   ("solvers/lm.h:152", "○:{:.2e} ", 1),
   ("solvers/gd.h:73", "Need to resize the system", 0),
   ("optimize.h:74", "❌ Error: Unknown solver type {}", 1),
   ("optimizers/optimizer.h:64", "❌ Error: Parameters dimensions cannot be 0 or Dynamic at execution time", 0),
   ("optimizers/optimizer.h:69", "❌ Error: Parameters dimensions is negative: {} ", 1),
   ("optimizers/optimizer.h:81", "❌ Failed to allocate {} Hessian(s) of size {}x{}, mem:{}GB, maybe use a SparseMatrix?", 4),
   ("optimizers/optimizer.h:88", "❌ Error: Failed to resize the linear solver. {}", 1),
   ("optimizers/optimizer.h:324", "{}, cost: [{}]", 2),
   ("optimizers/optimizer.h:375", "❌ #{}: No residuals, stopping", 1),
   ("optimizers/optimizer.h:379", "❌ #{}: NaN/Inf in error", 1),
   ("optimizers/optimizer.h:388", "❌ #{}:Failed to solve the linear system", 1),
   ("optimizers/optimizer.h:406", "❌ #{}: NaN/Inf in error: ε:{}", 2),
   ("optimizers/optimizer.h:418", "❌ Failure, dX = \n{}", 1),
   ("optimizers/optimizer.h:419", "Solver: {}", 1),
   ("optimizers/optimizer.h:420", "grad = \n{}", 1),
   ("optimizers/optimizer.h:421", "H = \n{}", 1),
   ("optimizers/optimizer.h:469", "x:{:.5f} ", 1),
   ("optimizers/optimizer.h:475", "{}", 1),
   ("optimizers/optimizer.h:489", "{}:{:.4e} n:{} d{}:{:+.2e} r{}:{:+.1e} ", 7),
   ("optimizers/optimizer.h:494", "|δx|:{:.2e} ", 1),
   ("optimizers/optimizer.h:495", "δx:[{}] ", 1),
   ("optimizers/optimizer.h:499", "⎡σ⎤:{:.2f} ", 1),
   ("optimizers/optimizer.h:502", "|∇|:{:.2e} ", 1),
   ("optimizers/optimizer.h:507", "in:{:.2f}% ({}) ", 2),
   ("optimizers/optimizer.h:513", "τ:{:.2f} ", 1),
   ("optimizers/optimizer.h:515", "{}", 1),
   ("cost.h:73", "{}:{:.4e}, n:{}", 3),
   ("cost.h:75", ", √{}/n:{:.2e}", 2),
   ("cost.h:78", ", in:{:.2f}% ({})", 2),
   ("diff/gradient_check.h:100", "Wrong gradient {:.3e}>eps. \nGradient:{}, Numerial Gradient:{}", 3),
   ("diff/gradient_check.h:215", "Wrong gradient {:.3e}>eps. \nH:\n{}, Numerial JtJ:\n{}", 3),
   ("diff/auto_diff.h:95", "⚠️ Residual ({},{}) is not connected to the parameters", 2),
   ("diff/auto_diff.h:107", "⚠️ Residual #{} is not connected to the parameters", 1),
   ("diff/auto_diff.h:120", "⚠️ Residual is not connected to the parameters", 0),
   ("diff/optimize_autodiff.h:161", "Jt:\n{}\n", 1),
   ("log.h:90", "{}:{}x{}{}{}", 5)]

end Verif
