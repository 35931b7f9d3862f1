# Formal model of tinyopt: design

The code under study is the header-only C++ library in `/repo/include/tinyopt`, read as text; nothing was
built or run. The model and the proofs are the Lean 4 project in `lean/`. The properties are listed in
`properties.jsonl`; `MANIFEST.json` maps each property to its theorems; `seeded/LOG.jsonl` records the
mutation tests of the theorems.

## 1. Trusted base

* **Lean 4.33.0's kernel** and the statements of the Mathlib definitions used in theorem statements (`ℝ`, `HasFDerivAt`,
  `Matrix`, `List`, `ℚ`, ...).
* **Axioms**: every theorem depends at most on `propext`, `Classical.choice` and `Quot.sound`. No axiom is added, there is no
  `sorry`, no `native_decide`, no `bv_decide`. Concrete runs are evaluated with `decide +kernel`, i.e. by the kernel.
* **The model is a transcription.** That each definition in `Verif/Model` follows the C++ lines it cites is checked by
  reading only. Simplifications are listed in section 4.
* **Assumptions that appear as hypotheses** (never as axioms): what Eigen's factorisations return
  (`ExactLinAlg`, `PosLDLT`, `SemiLDLT`, `ExactSparse`, `ExactShift`, `Fact` contracts; all have a constructed instance, so the hypotheses can be met); that
  `x + d - d = x` for the parameter type (`C05_*_partial`, C06; not needed by the other C05 theorems); the iteration budget bounds that exclude wrap-around of the
  16 bit counter (the wrap-around itself is C08's violation).

## 2. Layout

| directory | content |
|---|---|
| `Verif/Num` | `FloatOps` (operations the code uses), `FloatLaws` (laws used by control-flow theorems), `Fl f` (floating point numbers of a format `f` with NaN, infinities, overflow; instance of both), `Fmt.exact` (rational arithmetic without rounding), `Fmt.binary64`, `Fmt.binary32` (round to nearest even, gradual underflow), `ℝ` as `FloatOps` (exact arithmetic), `Rd r` (real numbers with operations rounded by any function `r` of relative error `u`; no overflow, underflow, NaN) |
| `Verif/Model` | the model, one definition per C++ function, each citing file and lines |
| `Verif/Examples` | small problems used by the `example`s and witnesses |
| `Verif/Lemmas` | invariants and helper lemmas |
| `Verif/Props` | the property theorems `Cnn_*`, the specifications they are stated with, and an `example` beside them meeting their hypotheses |

### Naming

`Cnn_name` is the full claim (or one part of it). `Cnn_name_partial` is the part of a claim that holds; its comment says
what is missing. A theorem whose comment begins with "**Cnn is violated**" is a proof that the code does not have the property:
a concrete run or a general family. A property with status `partial` in the manifest is one that the code violates
somewhere; it has at least one such violation theorem and one `_partial` theorem covering the rest, unless the note says otherwise.

## 3. What is modelled and how

* **Arithmetic.** The C++ types `double`/`float` are a type `F` with `FloatOps F`. Theorems about control flow hold for
  every `F` with `FloatLaws F` (strict weak order on finite values, `a - b < 0` iff `a < b` for finite values, `DBL_MAX` is the largest finite value),
  which `Fl f` satisfies for every rounding function on a symmetric grid; binary64 and binary32 are instances. Theorems that need the values of
  sums and products (C18, C20, C22, C26, C34) are over `Fl f`. Theorems about derivatives, descent, growth laws are over
  `ℝ` ("exact arithmetic" in the manifest), they say nothing about rounding. C31 is over binary32. C113 is over `Rd r`; `Num/RoundedBin` relates its operations to those of the IEEE formats, `C113_ieee` is over the IEEE formats.
  The cube `std::pow(x, 3.0f)` and `sqrt` are operations of the format (`cube a = a*a*a` rounded twice; the square root of an IEEE format is correctly rounded, `ieee_sqrt_nearest`, and rounding is to nearest, `rndBin_nearest`); `Fl` has one zero; `SFl` (Num/SignedZero) has `-0` too, and C132 shows that runs do not depend on it.
* **Robust losses, activations and norms in floating point** (`Model/RobustFl`, `Model/ActivFl`, `Model/NormsFl`): norms and distances of vectors with any order of summation, activations of `double`s and losses and scales of robust_norms.h for scalar squared norms in the arithmetic of a format; `std::exp`, `std::log`, `std::atan2` and `numeric_limits::min()` are a parameter `Libm` of which the theorems assume monotony, values at one point and saturation. The sign of zero is not modelled. Jacobians of the losses are in `Model/Losses` over the real numbers only.
* **Two types of numbers** (`Model/Mixed`): with `Scalar = float` the gradient, the Hessian, the steps and the damping are `float`s, costs and stop criteria are `double`s. The solvers are modelled a second time over two types `S`, `D` with conversions; with `S = D` they are the solvers of the other properties (`C124_same_*`). `float`/`double` is the instance `Sgl`, `DblF`, `convF`. The remaining properties are about one type.
* **Optimizer loop** (`Model/Optimizer`, optimizer.h:120-480): a state machine over world, solver state, `x`, `Output`, the last step and
  the loop flags. User function, callbacks, allocation and clock act on an arbitrary `world : W`, so they may be stateful and
  arbitrary. The solver is an interface (`SolverI`), so the loop theorems hold for every solver; GD, GN and LM are instances.
  A ghost field `trace` records for every iteration where it started, what step it proposed, the output after `Step`, whether the step was
  successful, and the position after the move. It is written only, never read.
* **Outcomes.** `Res` distinguishes a normal result, undefined behaviour (`ub`: signed overflow, empty history read, `std::clamp` with crossed bounds,
  vector segments out of bounds, integer division by zero), an exception, and `fuel` (the C++ loop is still running after the given number of
  rounds). "Returns" means: some amount of fuel gives `ok`. Theorems of the form "if the run returns `ok st` then ..." are complemented by C01, C02 (when it does).
* **Integers.** `num_iters` wraps at 2^16, `num_failures` and `num_consec_failures` at 2^8 as in C++; the `int` loop bound and
  `Cost::num_resisuals` have overflow as `ub`.
* **Solvers** (`Model/Solvers`; gd.h, gn.h, lm.h, base.h, math.h): resize, accumulate, clamp, cost normalisation, diagonal test,
  damping and un-damping of the diagonal, good/bad step rules, evaluation-only mode, solve, exported Hessian. Vectors and matrices are functions on `Fin n`
  with a run-time size. The user's function (`Acc`) maps world, point and the zeroed system to a cost, gradient, Hessian. `LinAlg` is Eigen's LDLT and
  inverse: arbitrary functions unless a theorem assumes `ExactLinAlg` (on positive definite matrices they return the solution).
* **LDLT** (`Model/EigenLDLT`): the decomposition behind `SolveLDLT`, written after the published source of Eigen 3.4.0 (the version of cmake/ThirdParties.cmake:15-23; Eigen is not part of /repo): left-looking, pivot chosen by the diagonal, sign and success rules, pivots below a tolerance ignored in `solve`. The contracts `ExactLinAlg`, `PosLDLT` and `SemiLDLT` hold for it over `ℝ` (`eigenLinAlg_exact`, `eigenLinAlg_pos`, `eigenLinAlg_semi`).
* **LLT** (`Model/EigenLLT`): the Cholesky decomposition and the forward substitution behind `MahaWhitened` (mahalanobis.h:139-153), written after the published source of Eigen 3.4.0: in place, stops at the first pivot that is not positive and leaves the rest of the matrix as it is. The contract `Fact.Ok` of C46 and C89 holds for it (with the LDLT above) over `ℝ`: `C115_contract`.
* **Sparse LDLT** (`Model/SimplicialLDLT`): the decomposition behind the sparse `SolveLDLT` and `SparseInvCov`, written after the published source of the same Eigen version: up-looking, row by row, with shift and an arbitrary elimination order; a zero pivot is refused
* **Output** (`Model/Output`): the assignment of the output of a run, `StopReasonDescription` as a list of pieces with possible UB,
  `Covariance`, `DenseInvCov`.
* **Cost** (`Model/Cost`), **SQRT / MaxAbsDiff** (`Model/MathH`), **parameter traits** (`Model/Params`: universe of nested scalars, matrices, arrays, vectors, pairs), **parameters as jets** (`Model/Seed`), **programs on jets** (`Model/Prog`),
  **dispatch** (`Model/Dispatch`: which solver runs for which callable; the callable is represented by what it is callable with).
* **Defaults** (`Model/Defaults`: the default values of `Options` read by optimizer and solvers, literals with the suffix `f` rounded to binary32; logging options are not included).
* **Numerical differentiation and gradient checks** (`Model/NumDiff`) and **losses, norms, activations, Mahalanobis, distances** (`Model/Losses`, `Model/MahaDist`) over `ℝ`; **numerical differentiation over any arithmetic** (`Model/NumDiffFl`, with the same code over `ℝ` by `numEvalF_real`) and the problem that `Optimize` makes of a function without derivatives.
* **Automatic differentiation** (`Model/Jet`): every rule of Ceres' `jet.h` for scalar functions as pair (value, linear map of the
  infinitesimal parts), once with compile-time dimension and once with run-time dimension (where an unset part is an empty list and indexing out of bounds is `ub`); an expression
  language over these rules; `Model/AutoDiff`: the accumulators of `optimize_autodiff.h`.

* **Sparse Hessians** (`Model/Sparse`): matrices as stored entries by columns with Eigen's class invariant; `coeffRef`, `selfadjointView`, the diagonal loops,
  `SolveLDLT`, `SparseInvCov`, and the sparse Gauss-Newton and Levenberg-Marquardt solvers. `SpLinAlg` is `SimplicialLDLT`. The hypothesis `SameLDLT` of C61 says that
  its result depends on the coefficients of the upper triangle only, and is that of the dense LDLT; in exact arithmetic this follows for positive definite matrices
  from `ExactSparse` (`exact_dense`). A fill-reducing order of elimination that depends on explicitly stored zeros is outside this.
* **Softmax in floating point** (`Model/ClassifFl`), with `std::exp` and Eigen's order of summation as parameters.
* **Rotations and poses** (`Model/Lie`; 3rdparty/traits): `PlusEq` of the Sophus and lie++ traits with the exponential of matrices and quaternions over `ℝ`.
* **Logging** (`Model/Log`): the run with the one call inside the log that can throw (`MaxStdDev`); the text is not modelled. `Model/SparseLog`: `MaxStdDev` with sparse Hessians; `coeffs()` is the list of the stored, non-zero coefficients of the compressed result.
* **Jets of jets** (`Model/NestedJet`, jet.h:392-900): operators, one-argument functions, `hypot` and `atan2` of two, written for any scalar type; `Tower n k` nests `k` times. Left out: `abs`, `copysign`, `fmax`, `fmin`, `fdim`, `pow` of two jets, C++17 Bessel functions, `floor`, `ceil`, `hypot` of three, `fma`. `T(1.0)` compiles only for numbers and for jets of numbers, so the theorems for depth above 2 are about code that the compiler refuses today.
* **Bessel functions of POSIX** (`Model/PosixBessel`, jet.h:910-992): `BesselJ0`, `BesselJ1`, `BesselJn` of numbers, jets and jets of jets; `j0`, `j1`, `jn` of the C library are the series in exact arithmetic; `n - 1` and `n + 1` are checked for overflow of `int`.
* **Softmax of a scalar** (`Model/SoftmaxScalar`, classif.h:20-26, 57-63) and **the numeric limits of jets** (`Model/JetLimits`, jet.h:1416-1482; `has_denorm`, `round_style`, `traps`, infinities and NaNs are left out).
* **The square root example with hand written derivatives** (`Model/SqrtProb`): the user function of tests/sqrt2.cpp:31-48 over any arithmetic.

## 4. What is not modelled

* The text of the log apart from matrices and vectors in it (C134) and `format2` (C82), the conversion of numbers to strings. The clock is an arbitrary source of durations except in C80 (`Model/Time`); there reading it takes no time and its readings are not rounded to `float`.
* `InvCov` of blocks; the memory layout of sparse matrices. Rounding, closed formulas and `cast` of the Sophus and lie++ types.
* Template meta-programming and overload resolution, except the decision table of C48 and the type computations of the jets (C108).
* Memory, except that `resize` may fail with `bad_alloc`; object lifetimes; threads (none in the library).
* Eigen's algorithms except the dense and the sparse LDLT and the dense LLT (`Model/EigenLDLT`, `Model/SimplicialLDLT`, `Model/EigenLLT`; of the sparse LDLT not the elimination tree and the AMD ordering, which is an arbitrary permutation here), the elementary functions of `libm` (taken as the real functions).
* Signs of NaNs, `Optimize` of `optimize.h` printing.
* `SafeSoftmax` and `MahaNorm` overloads that do not compile when instantiated; `InvCov` of a block (math.h:182-189, passes the block on to the modelled functions); scalar robust losses with an exported Jacobian (do not compile); `SolverGD::Evaluate` (gd.h:96-103; `NormalizeCost(Cost &)` on a `const` cost does not compile if instantiated, and nothing in the library calls it).

## 5. Defects found (each proved as a violation theorem)

| property | defect |
|---|---|
| C02 | `max_consec_failures = 0` disables the limit of the retry loop: `Optimize` never returns if the linear solve keeps failing |
| C05 | a rejected step is undone by `x += -dx`: in floating point `x` is not restored, the returned `x` was never evaluated and has another cost than `final_cost` |
| C06 | the last step is applied but never evaluated, also with `check_final_cost` (the evaluation-only flag is set after the last iteration): the returned `x` can be worse than `final_cost` |
| C08 | `max_iters = 65535`: `num_iters` wraps, `stop_reason` stays `kNone` |
| C09 | a time-out replaces a failure reason: `Succeeded()` although nothing was computed |
| C12 | `max_iters + 1` iterations are run; `max_iters = 0` moves `x` |
| C13 | failures of the linear solve do not trigger `max_total_failures`; the 8 bit counter wraps |
| C16, C17 | re-used LM objects keep damping, evaluation-only mode and the old linear system (without `reset()`); exported Hessian of a run that never built a system |
| C19 | `num_residuals`, `num_diff_used` are never set, so `Covariance(true)` never rescales; the formula squares a cost that is already squared |
| C22 | `damping_init = 0` does not disable damping with the default `damping_range` |
| C23 | the exported Hessian is damped after one iteration and un-damped wrongly after a failed evaluation |
| C24 | a good step divides by one `bad_factor` too many |
| C25 | GN/LM of static size one without LDLT: no step for Hessians up to `FloatEpsilon`; with gradient clipping the step can ascend |
| C29 | `use_squared_norm = false` rejects steps that decrease the cost when the square roots round to the same number |
| C30, C31 | counts of inliers/outliers are truncated: 13 of 22 inliers are reported as 12 |
| C32 | `PlusEq` on pairs with a static second type and on containers of dynamic-size elements is wrong or undefined |
| C72 | as a consequence, automatic differentiation returns zero rows for the second component of a pair of static type |
| C37 | dynamic jets: several functions read empty infinitesimal parts |
| C39 | Gradient Descent on a scalar cost follows `f * grad f`: ascends where the cost is negative, stalls where it is zero; with numerical differentiation the reported cost is the absolute value |
| C41 | Huber, Arctan, Cauchy export the smallest normal number for smaller derivatives |
| C42 | GemanMcClure with `th2 < 1` exceeds the squared norm |
| C43, C46, C47 | Jacobians of small vectors, negative scalars, `MahaWhitenedInfoU`, cosine (second argument). `Cosine` of vectors with Jacobians (distances.h:81-90) returns tuples of different types from its two branches, so that it does not compile when instantiated; the theorems on its values are about the formulas. |
| C45 | scalar activations export derivative 0 |
| C48 | functions overloaded with `(x,grad)` and `(x,grad,H)` are rejected by the second order solvers |
| C50 | after two rejected steps LM accepts a step solved from the system of another point |
| C51 | `check_min_H_diag` rejects if any (documented: all) diagonal coefficient is small |
| C57 | step quality 0 is treated as "no quality" and lowers the damping like a perfect step |
| C59 | numerical differentiation reports the norm of the residuals, automatic differentiation its square |
| C62, C63 | the sparse LDLT (and the inverse of a 1x1 matrix) is not tested for positivity: steps go uphill with an indefinite sparse Hessian, variances are negative |
| C64, C65 | without covariance LM reports the standard deviation 0; in GN `MaxStdDev` throws, so that a log option makes `Optimize` throw |
| C69 | `Softmax` returns NaN where `exp` overflows |
| C74 | LM accepts any decrease, however small, and then lowers the damping: with the default damping it can jump from side to side of a minimum for 65536 accepted iterations without the gradient becoming small (no gain ratio is tested) |
| C77 | one parameter without LDLT: a zero Hessian gives a zero step when the size is known at compile time, an error (`kSystemHasNaNOrInf`) when it is known at run time |
| C78 | the step of numerical differentiation is absolute (1e-4 in float, 1e-7 in double): for a parameter above 2048 (float) or 2^30 (double) `x ± h` rounds to `x`, the Jacobian is zero for every function, and runs return the start with a stop reason that counts as convergence. The same happens at small parameters when the residual is so large that `f(x ± h)` round alike |
| C79 | the normal equations given in the comment robust_norms.h:23 (unweighted Hessian) overshoot for Tukey, whose scale is near 3 for good residuals, and for Geman-McClure with th2 ≤ 1/4: every Gauss-Newton step near the minimum increases the cost |
| C80 | `toc_ms` truncates to microseconds and `duration_ms` sums the truncated values: iterations below 1 µs cost nothing and the time limit never stops them |
| C82 | `format2` (log.h:40-67, C++17 builds without fmt) accepts an opening brace that is never closed: it consumes an argument and drops the rest of the string instead of throwing |
| C83 | The stop criteria (optimizer.h:519-534) are applied to rejected steps too: a run can stop with `kMinDeltaNorm` (a success) because of a rejected zero step, after which `x` is rolled back to an iterate with a large gradient |
| C86 | The relative decrease of the cost is taken to be 0 for costs up to `FloatEpsilon` (optimizer.h:431-433), and `Solve` for one parameter without LDLT (gn.h) returns a zero step for `H <= FloatEpsilon`: both constants are absolute, so the behaviour depends on the unit of the residuals |
| C89 | Levenberg-Marquardt returns half of the covariance of the residual x - 3 after one iteration with damping 1 |
| C90 | Gauss-Newton and gradient descent never recover from a rejected step: nothing changes between the tries, so the run alternates between two points until a limit is reached (x^2 = 1 from 1/4) |
| C91 | `cyl_bessel_j(0.5, jet)` and `BesselJ0` of a jet with a negative scalar part throw `domain_error` |
| C95 | after a rejected step Levenberg-Marquardt tries a longer one: `GoodStep` divides the damping by 3 when an iterate is accepted, before the step from it is judged; one `BadStep` only doubles it, so the point is tried again with 2/3 of the damping of the step that was just rejected |
| C96 | the circle fit of docs/API.md:86-112 has no sign constraint on the radius: Gauss-Newton started at centre (11, 0), radius 10 on four points of the unit circle reports the radius -1; from the start (0, 0, 1) of the test (circle with centre (2, 7)) its first step is rejected and repeated until max_consec_failures |
| C97 | `Softmax` and `SafeSoftmax` of a scalar export the Jacobian `Jx` (or 1) of a constant; `SafeSoftmax` exchanges the cases with and without Jacobian (classif.h:20-26, 57-63) |
| C101 | `numeric_limits<Jet>::min_exponent10` is `max_exponent10` of the scalar type (3rdparty/ceres/jet.h:1445): 308 instead of -307 for `double` |
| C102 | the sparse `MaxStdDev` of an indefinite Hessian is finite: `diag(a,-b)` gives 1/sqrt(a) |
| C104 | `SolveLDLT` and `InvCov` (math.h:41-57, 232-240) test `info() == Success && isPositive()`, which singular matrices can pass: a wrong solution or an "inverse" of a singular Hessian is returned (`C104_wrong_answer`, `C104_cov`). Eigen chooses pivots by the diagonal before elimination, so positive semidefinite matrices can also be refused (`C104_refuses`); then Gauss-Newton does not move at all (`C103_gn_refused`) |
| C105 | A parameter without effect (its Hessian row is zero) can stop Gauss-Newton: `LDLT` swaps it to another place, which changes the order of equal pivots, and the decomposition of the others is refused where it was accepted before (`C105_gn_refused`) |
| C108 | `CompatibleJetOperands` looks at the outermost dimension only: `fmax(Jet<Jet<double,2>,3>, double)` is selected but does not compile, `Jet<Jet<double,2>,3>` and `Jet<Jet<double,4>,3>` are compatible without a common type; the rank -1 of non-numeric types is also `Eigen::Dynamic`, so a dynamic jet can be promoted with any type (jet_traits.h:84-93) |
| C109 | Without C++20, `fmax` and `fmin` of two jets with equal values compute `(x + y) * 0.5`, which overflows to infinity above half the largest number (jet.h:843, 866) |
| C110 | The sparse `SolveLDLT` is documented to return nullopt for matrices that are not positive definite (math.h:250-277) but only tests `info()`: any diagonal matrix without zeros is solved, also with negative entries, and for other indefinite matrices it depends on the elimination order |
| C114 | The example `Optimize(x, loss)` for general optimization in docs/API.md:209-220 calls a function of parameters and gradient with the default options; `Optimize` throws `std::invalid_argument` (optimize.h:35-57), see `C114_gradient_only`. With the default options (`check_final_cost` is false) the last step of a run is applied without being evaluated, see `C114_last_step`. |
| C115 | `MahaWhitened(res, cov)` (mahalanobis.h:143-144) does not look at `info()` of the decomposition: with the covariance `[1 2; 2 1]` the residual `(1, 0)` becomes `(1, -2)` although the decomposition failed, see `C115_silent_witness`; `MahaSquaredNorm` refuses that covariance. |
| C116 | `SolverLM::Build` damps by multiplying the diagonal (lm.h:108-118): a negative entry gets more negative. With exact Hessians, as in tests/optimize_easy.cpp, every run that starts at a point with a negative second derivative along an axis fails for good (`C116_never_leaves`, `C116_rosenbrock`), and does not return at all with max_consec_failures = 0. With the default options the damping reaches only 0.1024 before the run gives up (`C116_default_gives_up`) |
| C122 | tests/optimize_easy.cpp:122: `H(0, 1)` of the plateau has the wrong sign (`C122_plateau_hessian`); the test does not notice because `CheckGradient` ignores Hessians and the wrong matrix is definite where the right one is. tests/nn.cpp:267-268 returns the norm of the residuals with the gradient of half its square (`C122_training`). |
| C124 | with `Scalar = float` the damping of Levenberg-Marquardt has no effect below `2^-26`: `h *= 1 + lambda_` rounds back to `h` (default range down to `1e-9f`); finite steps with a coefficient above `2^64` are refused as infinite because their squared length is a `float` |
| C125 | robust losses in floating point: BlakeZisserman is `+inf` (scale NaN) for thresholds and squared norms from 746 on in double and from 104 on in float (`exp(-n2) + exp(-th2)` is 0), a run stops at once; Truncated and Tukey give a NaN residual the loss `th2` and the scale 0; GemanMcClure of an infinite squared norm is NaN; the Tukey scale divides by the square of the threshold, which may underflow |
| C126 | `Tanh` is written as a quotient of exponentials: NaN from 710 on and up to -710, 0 for arguments smaller than `2^-55`; `ReLU` turns NaN into 0 (derivative 0), so that a NaN of an earlier layer never reaches the cost |
| C127 | `L2` squares its coefficients unscaled (`norm()`, not `stableNorm()`): from `2^512` on the norm is infinite and the Jacobian zero, up to `2^-538` the norm is 0 and different points have distance 0; the triangle inequality holds up to rounding only |
| C128 | `distances::MahaNorm` inherits the Jacobian of `MahaNorm` for small norms: not divided by the norm up to `FloatEpsilon()`, at every pair of such points |
| C134 | In C++17 builds without fmt the formatter of dense matrices is left out (formatters.h:15) and log.h:76 streams the vector as it is: with `print_dx` the log line of an iteration is broken into as many lines as there are parameters. `TINYOPT_LOG_MAT` (log.h:90-94) prints `(1, 2, 3)` as `v:3x11 2 3`. `operator<<` of vectors of vectors (formatters.h:76-82) is ambiguous |
| C135 | tests/userdef_params_jet.cpp: `area()` is the diagonal, so the rectangle found has area 16000 instead of 200; `delta[0]`, `delta[1]` move the corner, not the centre; the residuals have a second zero, upside down and almost without width, where the test would fail |
| C138 | Small starts of the square root never move: with the default damping (1e-4, growing by powers of 2) and max_consec_failures up to 6, the at most three dampings tried at the start are at most 0.0064, so every start with 1e-3 <= abs x0 <= 5/8 of the benchmark Double (drawn from [-1, 1]) ends unconverged where it started. The comment in benchmarks/dense.cpp:45 names one of them. |
| C139 | benchmarks/dense.cpp:59-64: with derivatives the vector `stdevs` is used as standard deviations (`MahaWhitened`), without as variances (`MahaSquaredNorm`): different costs unless all are 1, negative ones for negative coefficients of `Random()` |
| C140 | lm.h:108-110: a `Build` that keeps the system divides by `1 + prev_lambda_`, but `prev_lambda_` is not the damping contained in `H_` unless exactly one of `GoodStep`, `BadStep` was called since the last `Build`: repeated `Build`s damp again and again |
| C142 | options.h:63, math.h:236: with the default `check_min_H_diag = 0` a Hessian that is zero, as when the function forgot to write it, is accepted by `SolveLDLT` (`isPositive()` holds for the zero matrix) and the run is reported as converged at the start, whatever the cost |

## 6. Per property

Hypotheses common to the loop theorems: `optimizeAcc E o fuel mi w s x = .ok st` (the run returned); `budget o mi` is the number of iterations of the `for` loop.

| id | status | what is modelled, how it is proved |
|----|--------|------|
| C01 | proved | any solver whose hooks are defined, any function; a ghost counter `cnt` of the user's calls in the world. Induction over retries and iterations. |
| C02 | partial | divergence for every fuel proved by induction for a solver that always fails; partial: terminates if the solve succeeds after at most `K` failures. |
| C03 | proved | invariant of the loop over the three lists and the counter; budget at most 65535. |
| C04 | proved | invariant: `final_cost` is the minimum, `successes` marks strict improvements; budget at most 65536 (at 65536 the first-iteration test fires again). |
| C05 | partial | invariant with the ghost trace, for every parameter type: position is the best evaluated point, moved forth and back by rolled back steps, then possibly by one proposed step; exact when `x + d - d = x`; error bound `((1+u)^(2k)-1)(|x|+B)` for IEEE coordinates; violation run in double precision. |
| C06 | partial | run as counterexample; partial: runs that end by a failed step, for a deterministic cost. |
| C07 | proved | `Justified` spells out each stop reason (for `kMinRelError` also the range of the best cost in which the criterion is active); case analysis of every exit of `Step` and of the loop. |
| C08 | partial | general run of 65536 iterations (by a recurrence over iterations, not by evaluation); partial: budget at most 65535. |
| C09 | partial | decision tables for the flags; `Succeeded()` false iff an error is missing in the history, unless timed out. |
| C10 | proved | seven theorems, one per failure class, on arbitrary solvers; `FailedAtOnce` fixes reason, position, world and iteration count; for no residuals also one theorem per solver that assumes only what the user's function returns (`Props/NoResiduals`). |
| C11 | proved | invariant: all entries finite. |
| C12 | partial | run as counterexample; partial: `budget` moves at most, and the positions are a chain. |
| C13 | partial | two violations (runs); partials: rejected steps respect the limit; without solver failures the claim holds; the counter is the number of failures mod 256 (from the call log). |
| C14 | proved | durations accumulate the clock differences; invariant on the accumulated duration. |
| C15 | proved | arbitrary observers `said`/`late` of the world that record the user's calls; `Step` case analysis. |
| C16, C17 | partial | simulation relations between runs from two solver states; leaks as concrete runs. |
| C18 | proved | congruence: runs only depend on the values of the user's function at zero arguments; `0 + v = v` in `Fl f`. |
| C19 | partial | invariant over the run; the rescaling formula over `ℝ`. |
| C20 | proved | over `Fl f` with rounding, overflow: sign lemmas for rounded operations; any sequence of hook calls, and whole runs. |
| C21 | proved | induction over the number of bad steps, over `ℝ`; monotonicity and the maximum also over `Fl f`. |
| C22 | partial | violation run; partial with lower end 0: invariant `lambda = 0` over `Fl f`. |
| C23 | partial | invariant `saved = user's Hessian at the last rebuild, damped by prev`; costs need to be usable only at the points of the run; two violation runs. |
| C24 | partial | general violation for every number of rejected steps; partial inequalities with clamping. |
| C25 | partial | quadratic forms over `ℝ`; the model's `lmBuild`/`gnSolve` under `ExactLinAlg`; violations for tiny one-dimensional Hessians and for clipped gradients. |
| C26 | proved | over `Fl f`: clipping spec `ClipOf`; invariants for whole runs of LM, GN, GD tying the clipped gradient to what the user's function returned. |
| C27 | proved | simulation relation "same upper triangle" over whole runs. |
| C28, C52 | proved | linear least squares over `ℝ`, for any reported cost that increases with the sum of squares: normal equations, quadratic expansion, run invariant. |
| C29 | partial | algebra over `ℝ`, eight option combinations; over `Fl f` every scaling step reflects `<`; violation run in double precision. |
| C30 | partial | trees of `+=` (of costs and of residual vectors) over `ℝ` with `int` overflow as UB; outlier counts only for ratios that are counts. |
| C31 | partial | binary32 rounding error analysis for all `n <= 2^23`; witnesses. |
| C32 | partial | induction over the type universe; violations for all pairs with static second type and all vectors of dynamic matrices. |
| C33 | proved | loop invariant over `Int` with overflow check. |
| C34 | proved | lists of entries per column; fold-max characterisation, over `ℝ` and over `Fl f`. |
| C35 | proved | `NumEval` loop over functions `ℝ^n -> ℝ^m`: invariant on the step vector, list of evaluated points; Taylor bounds. |
| C36 | proved | every jet rule has the right derivative (`HasFDerivAt`); induction over expressions. |
| C37 | partial | run-time jets against compile-time jets: induction over expressions; per-function violations. |
| C38 | proved | derivative calculus for the accumulators. |
| C39 | partial | the accumulated gradient is `f` times the gradient; composed with the Gradient Descent solver (also with clipping). |
| C40, C54 | proved | from C35. |
| C41-C47 | see manifest | calculus over `ℝ`; every exported derivative is compared with `HasDerivAt`/`HasFDerivAt` of the modelled value. |
| C48 | partial | decision table for all callables. |
| C49 | proved | the stop reason of a run implies a non-empty history, or the guarded piece is not printed. |
| C50 | partial | invariant "system of the last rebuild"; violation run. |
| C51 | partial | exact law ("some diagonal coefficient is between -t and t"), violation. |
| C53 | proved | `Covariance()` under `ExactLinAlg`. |
| C55, C56 | proved | the solver wrapped by a log of its calls; the log is proved not to change the run; grammar of the log per iteration. |
| C57 | partial | closed form over `ℝ`, monotonicity, violation at quality 0. |
| C58 | proved | composition of C36/C38/C35 (what the library accumulates) with C25, C28 and C52 (what the solvers and the loop do with it); Gradient Descent directly. |
| C59 | partial | both accumulators over `ℝ`; violation for the cost. |
| C60 | proved | descent lemma by monotonicity of `f(x+td)` minus its quadratic bound; run invariant with the sum of the decreases. |
| C61 | proved | the sparse solver state maps to a dense one (`SpGNState.toDense`); the map commutes with every solver operation (`Hom`), hence with the run (`run_hom`). Consequence for linear least squares from C52. |
| C62 | partial | `run_runinv` and C50 with the contract `PosLDLT`; violation run for sparse Hessians. |
| C63 | partial | column by column; violation witnesses. |
| C64 | partial | coefficients of inverses of positive definite matrices, monotonicity of the inverse; violation witness. |
| C65 | partial | the logged run equals the run if the hook succeeds in every state that solved (`log_same`); violation run. |
| C66 | proved | invariant over a run: errors and iterations have the same index, each error is the scaled cost of a call at that point. |
| C67 | proved | each accepted step contracts the norm weighted with the diagonal of `H` by `lκ/(1+lκ)`, where `diag H ≤ κ H` (κ exists by compactness of the sphere); the damping never grows because on these problems every step is accepted (C52). |
| C68 | proved | `Step` only lets steps of finite squared norm pass; a number with a finite square is less than half a unit in the last place of the largest finite number, so adding it never overflows; invariant over the run. Also removes the finiteness assumption of C05 in floating point. |
| C69 | partial (violated by `Softmax`) | floating point model of classif.h with any order of summation (`Model/ClassifFl`); induction over the summation tree for the bounds and the accumulated rounding error; `Softmax` returns NaN where `exp` overflows. |
| C70 | proved | Taylor bound from the Lipschitz Jacobian (mean value inequality), Gauss-Newton step as least squares projection, then the generic run theorem `descent_run` (`Lemmas/DescentRun`: every iteration delivers a step that decreases the cost, so every iteration is accepted). |
| C71 | proved | one-step inequalities for the damped normal equations (`damped_decrease`, `square_step`), `descent_run` with an iteration-indexed invariant of the damping (the damping at iteration `i` is at most `max(lo, l0 g^(i-1))`). |
| C72 | partial | `PlusEq` is natural in the scalars (`plusEqBy_cast`, induction over the types): the same update on expressions, on numbers and on jets; hence the jets are those of the expressions `x ⊞ δ` at `δ = 0`, and C36 differentiates them. Compile-time dimension: every type that compiles, also those with a wrong update (the derivative is then along that update; `C72_pair_wrong`: rows of the second component of a pair vanish). Run-time dimension: `good` types and `Safe` expressions. User classes and Lie groups are not modelled. |
| C73 | proved | A while-language over the expressions of `Model/Jet` (`Model/Prog`): registers of the scalar type, an arbitrary state that does not depend on the scalars, comparisons of the scalar parts. Values: induction over the program and the number of loop tests. Derivatives: the registers are jets of functions of the parameters (`IsJet`), an invariant of every statement; an expression on arbitrary jets is the jet of the expression of affine functions (`jetAt_affine`), so C36 applies; strict comparisons are locally constant. `C73_switch_wrong`: `x == 1 ? 1 : x * x` is `x²` but its derivative at 1 is computed as 0, so the strictness is needed. Loops have a bound on the number of tests, which is universally quantified. Not covered: jets of run-time dimension, conversions of scalars to integers. |
| C74 | partial | Positive part: sufficient decrease of the damped step (`damped_enough`, `damped_grad`) when the damping is at least `L |r| / δ`, summed over the trace. Full statement (any damping range): violated, `C74_lm_stalls` runs the default damping on the residual `x / (1+x²)^(1/4)` from `x = 1000`: the step mirrors `x` at zero up to `2/x + 2 λ x` (`slow_step`), the invariant of the run is the distance lost so far (the dampings form a geometric series). |
| C75 | proved | `quiet_run`: invariant `stop = kNone` of a run whose iterations delivered a step (`run_inv`). The rates follow from C60, C67, C70, C71, C74: either a zero was hit, which is kept, or the trace has full length. |
| C76 | proved | Relational simulation (`Lemmas/CoSim`): two runs on parameters of different types, related by a change of coordinates, with solver states related by `g' = Tᵀ g`, `H' = Tᵀ H T`. Levenberg-Marquardt multiplies the diagonal of `H`, which commutes with diagonal `T` only (`scaleDiag_cong`). The hypothesis `EquivLDLT` about Eigen holds for a solver that is exact on positive definite matrices and refuses the others; Eigen's LDLT departs from it on singular positive semi-definite matrices. `C76_conditions` has a run against each relaxation: gradient descent, clipping, `check_min_H_diag`, `min_step_norm2`, a shear with Levenberg-Marquardt. |
| C77 | partial | Simulation (`Lemmas/Sim`) between the two instantiations: after the first resize only the contents differ, and these are overwritten. Full statement (all options): violated for one parameter without LDLT (`C77_one_without_ldlt`). |
| C78 | partial | `Model/NumDiffFl` is the code of `NumEval` over any `FloatOps`; over `ℝ` it is the model of C35 (`numEvalF_real`). Absorption `x + h = x` from monotone rounding on the grid (`rndBin_absorb`), so the column is `0 / (2h) = 0`; runs by `zero_step_run`. Positive part `C78_central_error_partial`: Taylor + rounding of `x ± h`, of `f` (assumed within `δ`), of the difference and of the quotient. Full statement violated (`C78_float_vanishes`, `C78_gd_stuck`, ...). `ZeroSolve L n` assumes that Eigen's LDLT of a zero matrix with a zero right-hand side gives zero. |
| C79 | partial | `Lemmas/QuadRun` are runs of GN and LM with any gradient and positive semidefinite matrix; `BoundedBy f g Q x` says that `f (x + d) ≤ f x + 2 g·d + d·Q d` (majorization). Every loss lies below its tangent in the squared norm (`C79_tangent`: each is concave; the exported scale is the slope where it is exact, `ExactScale`), so for linear residuals the weighted quadratic is a majorant and the step of GN or LM decreases the cost unless the gradient is zero; `bounded_gn_run`, `bounded_lm_run` sum the decreases over the run. Recipe of the comment robust_norms.h:23: the same with `J^T J` in place of `J^T s J`, a majorant iff the scales are at most 1. Violated by Tukey and Geman-McClure (`C79_recipe_tukey`, `C79_recipe_geman`: one residual, step three times too long). Nonlinear residuals are not covered. |
| C80 | partial | `Model/Time` is `toc_ms` (whole microseconds, truncated). `InTime E o now tic` embeds a run in time: the external operations do not turn back the clock nor touch the local `t`; `Flows` propagates this through `Step` (retry loop by induction). `C80_real_time_partial` is an invariant of the run. Violated: `C80_never_stops` (a run with iterations of 900 ns, for every limit and number of iterations). |
| C81 | proved | `Props/Sqrt`: the problem is `ADScalar P (sqrtExpr a)`, i.e. the accumulation made by `accScalar` from the expression `x * x - a`; C38 gives gradient and Hessian. `sqrt_step` is the damped step in closed form: the error is multiplied by `θ = (e + 2xλ) / (2x(1 + λ))`. `Lemmas/StopRun`, `Lemmas/QuadStop` are runs all of whose steps are accepted, with the reason why they stop (`StopsBy`). From starts below about `√(a/5)` the first step overshoots and is rejected; such starts are outside the theorem. |
| C82 | partial | `Model/Format` has the two loops of `format2` by index, with reads beyond the terminating zero as a distinct outcome. `Props/Format`: `FmtStr` is the grammar (texts and placeholders), independent of the loops; every string is a good one, possibly followed by a stray `}` or an unclosed `{` (`fmt_cases`), and in each case the outcome is determined. `libFormats` are all calls under include/tinyopt. |
| C83 | partial | `Props/Converged`: `run_last` and `run_rows` relate the end of a run to the call of `Step` of its last row; `step_short` says what a stop by a norm implies about that call; `UserSystem`/`UserGradient` say what the user's function returned at the iterate. `mv_frob` bounds the gradient by the step. The two violations are evaluated runs. |
| C84 | proved | `Props/StationaryStart`: `first_stop` reduces a run whose first iteration gets a step and meets a criterion to that iteration; the steps come from `quad_gn_delivers`, `quad_lm_delivers` and `gd_delivers`. |
| C85 | proved | `Props/Units`: `run_runsim` (`Lemmas/RunSim`) is a simulation between two runs with related costs, norms and gradients; `Lemmas/Twin` shows for the three solvers that systems which are permuted (and scaled) stay so through `Build`, `Solve` and the damping. `linTwin_of_true` derives what is needed of the linear solver. `nlsProb_renumbered` is the instance for residuals. |
| C86 | partial | `Props/Units`, with the simulation of C85: systems are `k = c^2` times as large, costs `κ = c^2` or `abs c` times. `UnitRange` says that costs are representable and, if the options use the relative decrease, above `FloatEpsilon`. The violations are evaluated runs. |
| C87 | proved | `Model/Lie`: `PlusEq` on rotation matrices, unit quaternions and homogeneous matrices. `Lemmas/Lie`: orthogonality and determinant of the exponential of a skew-symmetric matrix (the determinant is positive because it is a square), the block form of the exponential of a twist. `Props/Lie`: `run_keeps` is an invariant of the points of a run; `OneParam` (two movements along one direction add up) gives the exact undo, hence C05; `run_pulled` is an exact equality of runs for user functions seen through a map that commutes with the update. `Props/LieQuat`: the matrix of the exponential of half the rotation vector is the exponential of its skew-symmetric matrix (the derivative of `exp(th) v exp(-th)` along the inverse motion is zero), so runs on quaternions are the runs on matrices; every rotation matrix comes from a unit quaternion (formula by cofactors, one of the four traces is positive), which is an exponential. |
| C88 | proved | `Props/LiePrior`: `jac_log` (the derivative of a logarithm maps the logarithm to itself, because along the direction of the logarithm it is linear), so the step is minus the logarithm and `OneParam` says that it leads to the prior; `gn_lands` follows the run, where the later steps are zero. The example is an angle as a complex number, with `Complex.arg`. |
| C89 | partial | `Props/Covariance`: the solver state at the end of a run on linear least squares (`gn_ls_run`, `lm_ls_run`: the matrix is `AᵀA`, damped by exactly the remembered factor) with C53; whitening with C46; moments of linear combinations of the noise. Examples: the line through three points, the correlated prior of the test, two-point noise. |
| C90 | partial | `Props/Stuck`: the two solvers remember nothing but the size of their buffers (`gn_memoryless`, `gd_memoryless`), so a retry from the restored point repeats the rejected step. `Props/Recover`: the state of Levenberg-Marquardt after `k` rejected iterations (`Trying`: damping at least `lamAt k`, position, whether the system is stale) with the decrease of C74. Examples: x^2 = 1 from 1/4, stuck with Gauss-Newton, solved by Levenberg-Marquardt after six rejected iterations (evaluated); gradient descent from 2. |
| C91 | partial | `Props/JetProps`: the power series with the Gamma function is differentiated term by term (`hasDerivAt_besselS`), with the recurrence of the series `besselS_rec`; `besselJ_ode` shows that the definition solves the differential equation of Bessel. The operation is part of the expressions of C36, C37 and C72. |
| C92 | proved | `Model/SqrtProb`, `Props/SqrtFloat`: `noisy_run` (`Lemmas/NoisyRun`) is an invariant of the run: the current point has its error below the rate, or the limit plus 3u per rejected step in a row, and the last step starts at a point where either the stored cost is its computed cost or the limit was reached. `sqrt_stepF` (`Lemmas/SqrtFl`) turns one iteration into real numbers with the errors of all its operations, `Lemmas/SqrtNoise` bounds the effect. `sqrt_double`: for double all a between 2^-400 and 2^400 are covered. |
| C93 | proved | `Model/Optimizer`. Lemmas/Prefix: one call of Step, one iteration with two option sets related by `Looser` (equal results, or the stricter one stops with the same output up to the stop reason); Props/Prefix: induction over the loop gives `InitialPart`; the comparison of the final costs follows from C04 for the longer run, whose cost history contains the shorter one. `Looser.of_thresholds` lists changes of thresholds that loosen |
| C94 | proved | Model/Optimizer, Solvers, Losses. Lemmas/Local: retries, step, body and loop are unchanged when Build is replaced by one that agrees at the recorded points; Props/Outliers: rejected measurements have constant loss and zero scale; with truncated losses the Gauss-Newton system at start and solution is the normal equation of the inliers, the decrease of the cost comes from the majorisation of C79 |
| C95 | partial | Model/Optimizer, Solvers. Props/Retry: comparison of the penalised models gives best and shorter; invariant of the loop with the last two records (system of the last accepted point, damping after GoodStep and BadStep, rebuild flag) gives the damping of the second try in every run (`retryDamping`); a run over the reals with the default factors is computed step by step |
| C96 | partial | Props/Circle: residuals as `Expr`, the linear change of variables (centre, |centre|^2 - r^2) turns the cost into a linear least-squares problem; the Gauss-Newton step is computed from the normal equations, then Heron's iteration of the radius; `run_first_bad` is an invariant of the loop for any memoryless solver |
| C97 | partial | `Model/SoftmaxScalar`: the three branches for scalars. The Jacobian is compared with the derivative of the returned value (unique) and with the one of the vector version (C44) |
| C98 | proved | Props/Kernel: the gradient and the approximate Hessian are derivatives of the kernel `<r(x), r(y)>` in the first and in both points, so equal kernels give equal systems (difference quotients likewise); then the two problems are equal |
| C99 | proved | Props/Prior: the stacked Jacobian is injective, so its Gram matrix is positive definite at every point and under every damping, also when Levenberg-Marquardt reuses the system of the last iteration (`lm_any_delivers`); `run_succeeds` turns this into the stop code. The bound on steps is the quadratic form of the normal equations and Cauchy-Schwarz. C99_linear is C58 for the stacked matrix |
| C100 | proved | Props/Powers: the Jacobian of the powers is `p q^(p-1)` times that of the residuals, both are invertible, so the two steps solve `J d = -q` and `J d = -q / p`; `gn_nls_run` for the iterations and `run_path` for the whole run |
| C101 | partial | `Model/JetLimits`: the specialisation member by member, nested by recursion. Induction over the nesting; `limits64` (binary64) satisfies all clauses, so the hypotheses are met |
| C102 | partial | `Model/SparseLog`: the maximum over the stored coefficients. The largest entry of the inverse of a positive definite matrix is on its diagonal and positive, hence stored; inverses are unique, so both solvers agree; the dense bound of C64 |
| C103 | partial | `SemiLDLT` says what Eigen's `LDLT` does with singular positive semidefinite matrices; the model of C104 satisfies it (`eigenLinAlg_semi`). GN: the invariant of C28 with the normal equations, which are always consistent (`normal_consistent`), if the decomposition accepts the Hessian; if it does not, no run moves (`C103_gn_refused`). LM: a damped step keeps the error orthogonal, in the inner product of the diagonal of `H`, to the kernel of `H` (`step_orth`), where the contraction of C67 applies (`semi_kappa`, by compactness) |
| C104 | partial | `Model/EigenLDLT` is Eigen's algorithm, step by step. Invariant `Dec`: `A` = sum of the columns found + rest, the rest lives on the indices not yet eliminated; for positive definite `A` the rest stays positive definite on them, so the pivots are positive (`ldltGo_pd`); `ldltSolve` inverts the triangular factor by induction on the columns |
| C105 | partial | `Lemmas/Pad`: Eigen's LDLT (C104) of a matrix with rows and columns of zeros goes through the same pivots, then meets only zeros (`ldltGo_pad`), so it gives the same answer, padded with zeros (`eigen_padOk`). Simulation of runs (`RunSim`) by `PadV`/`PadM` |
| C106 | proved | `Props/NestedJet`: `TowerRep x k J f`: the tower `J` carries the derivatives of `f` near `x`. Every factor used by a rule is itself an expression in the operations of `T`, equal to the derivative near the point (`Fn.factor_ok`), so `TowerRep` is closed under all operations by induction over the depth (`closed`) and holds of every expression (`eval_rep`). Order: all expressions are smooth on their open domain, second derivatives of smooth functions are symmetric |
| C107 | proved | `Lemmas/Bowl`: on a ball where the Hessian has eigenvalues in [μ, C] and Lipschitz constant L: strong convexity, the Polyak inequality, second order expansion, Newton steps square the distance, short damped steps lower the cost by a third of the model's gain. `gn_quad_run`/`lm_quad_run` lift this to runs; for LM the iterates stay in a level set. `bowl_of_smooth`: expressions are smooth on their open domain (C106), so such a ball exists around every nondegenerate minimum; gradient and Hessian from jets are the true ones by C106 |
| C108 | partial | `Model/JetTypes`: templates as functions on lists and types, `none` where a template cannot be instantiated; sums that overflow the integer type are errors. Inductions over sequences and nesting. Overload resolution itself is not modelled: the order of the specialisations is written down as a match |
| C109 | partial | `Model/JetMax`: the three functions over `Fl` (rationals with rounding, overflow, infinities and NaN), in both variants of the average. `std::midpoint` is taken as the correctly rounded mean. Case analysis; gradual underflow makes the difference of `fdim` positive |
| C110 | partial | `Model/SimplicialLDLT` is the up-looking algorithm of Eigen's `SimplicialLDLT` with shift and any fill-reducing order; the elimination tree only skips zero entries and is not modelled. Invariant `Rows`: the rows found satisfy `L D L^T = A`; positive definiteness gives a positive pivot by testing the quadratic form on the vector that solves `L^T v = e_k`; back-substitution by induction |
| C111 | proved | `Props/CostOrder`: simulation of runs (`Lemmas/RunSim`) where the costs of the two runs are those of the same evaluation; the accept test compares two of them, or one with the initial value. Constant residuals add zero rows to the Jacobian: `tmv_append`, `gram_append` |
| C112 | proved | `Props/GdConvex`: tangent parabolas from the slope inequality of Mathlib along lines; strong convexity gives dominance of the gradient; the rows of a run are gradient steps (C60) and form a path, along which the excess shrinks or the squared distances telescope; `run_rows_inv` gives the solver state of every row for the stop criteria; the overshooting run by an invariant on two points |
| C113 | proved | `Num/Rounded`, `Num/RoundedBin`, `Lemmas/LdltRound`, `LdltRoundGo`, `LdltRoundSolve`, `RunIndexed`, `Props/LdltFloat`, `Props/LmFloat`: accumulated errors as powers of 1+u; the loop invariant says that the columns so far factorise the rows and columns of the pivots up to rounding, and the elimination of a coercive matrix leaves at least mu/4 of its diagonal, so that every pivot is positive; the triangular solves by induction on the columns; Cauchy-Schwarz on the factors turns the error into one relative to the diagonal. Each damping multiplies the diagonal by 1+lambda up to four roundings, counted along the run; the invariant of the run says that the Hessian is a damped one. `Props/LdltIeee`: numbers of an IEEE format with a flag that an overflow or underflow clears; the loops of the decomposition in the format and in the rounded reals run in lockstep while the flags of the pivots last (the flags are those of the elimination without its checks, so that they do not assume success) |
| C114 | proved | `Model/Defaults`, `Lemmas/Tries`, `Props/Defaults`: the defaults meet the hypotheses of C01, C08 and C20; a quantity that grows with the calls of `Build` only grows by at most `max_consec_failures` per iteration (induction on the retry loop), so that 51 iterations have at most 255 failures; a lower bound on the distance along the path of gradient steps; a run of 51 iterations evaluated in the kernel |
| C115 | partial | `Model/EigenLLT`, `Lemmas/Llt`, `Lemmas/LltRound`, `Props/EigenLLT`, `Props/LltFloat`: invariant `LltInv`: the first columns reproduce the first rows and columns of the matrix up to a factor `G` (0 without rounding) and each later unit vector can be eliminated against them, so that the next pivot is a value of the quadratic form (without rounding), or at least a fraction of the diagonal (`taken_core`, shared with C113); the error of the substitution row by row; the two errors are compared with `Lt y`, `S y = r`, in the norm of the factor |
| C116 | partial | `Props/DampingLimits`: diagonal dominance of the damped matrix; the attempts of the first iteration as iterates of `nextTry`; induction on the attempts for the failures (`FailsInARow`), for the success and for the divergence; the Rosenbrock problem as instance |
| C117 | proved | `Lemmas/Convergent`: induction over the loop (`run_works_fin`): all iterations accepted until a short step; or rejected iterations in turns at the two ends of the first step. `Props/GdRuns`: Gradient Descent as instance; on the test's cost the distance y to 42 is multiplied by `1 - lr (6 + 4 y^2)` |
| C118 | proved | `Lemmas/Contracting`: induction over the loop for solvers with a state that is preserved by good steps (`contracting_run`); `Props/LsRuns`: the damping stays at most at its start, so each step contracts at least by the factor of that damping; tests: `e' = l/(1+l) e` |
| C119 | proved | `Lemmas/Double` gives the relative error of each operation; one step leaves at most `1.01e-4` of the distance (`step_arith`), the update adds `2^-53 abs(z)`; with `contracting_run` (generic in the number type) the run follows; relative decrease is at least 1/4 after a step that is not short, so that criterion never ends the run; overflow: `C10_bad_step` |
| C120 | proved | Sterbenz' lemma: differences of close numbers are exact, so from a point closer than `abs(z)/2` the step leads exactly to `z`; before, each step leaves `2^-53` of the distance (`gnB`); the criteria only stop the run when the point is that close (`locGn_near`) |
| C121 | proved | `x - 42` is exact (Sterbenz); forward error analysis of the gradient, the step and the cost (`gdGrad_val`, `gdCost_val`, `gdD_next`); steps that are not short have `abs(y) >= 1.5e-6`, where the decrease of the cost is larger than its rounding errors (`gdD_lower`); `contracting_run` |
| C122 | partial | gradient calculus (`HasGrad`), uniqueness of gradients for the violations; conjugation with diag(1,-1) for the definiteness |
| C123 | proved | `ldlt_diag`: the pivoted LDLT of a diagonal matrix rounds nothing but one division per coefficient (induction over the columns); `sqNorm_val`, `Val.sqrt`: error bounds of `squaredNorm()` and `norm()`; Sterbenz' lemma per coefficient; `contracting_run` |
| C124 | partial | `Model/Mixed` has the solvers over two types with conversions; `run_hom` relates them to the ones over one type; the loop theorems C01, C04, C07, C11 are instantiated at `DblF`, whose `eps` and `scalarMax` are those of `float`; for the damping `scale_back`: a double between `q` and `q (1 + 2^-26)` rounds to the float `q` (gap between neighbours, monotone rounding) |
| C125 | partial | `Model/RobustFl` has the losses in the arithmetic of a format; monotony of each operation (`div_leq`, `mul_leq`, `add_leq`, `sqrt_leq`); Huber across the threshold from `two_sqrt_prod`: `fl(2 fl(sqrt t) fl(sqrt x)) >= 2 t` for `t < x`, by cases on whether both roots round to the same number; BlakeZisserman from bounds of `log 2`; examples with a `libm` made of the real functions (`refLibm`) |
| C126 | partial | `Model/ActivFl` has the activations in the arithmetic of a format; monotony of the operations from C125; for Tanh the absolute value of the rounded difference is at most the rounded sum |
| C127 | partial | `Model/NormsFl` has the norms in the arithmetic of a format with any tree of additions; sums of numbers that are not negative never decrease; `Lemmas/SqrtSquare`: the rounded root of a rounded square is not below the number; additions have a relative error without conditions |
| C128 | partial | `Model/MahaDist` has the distance and the variants of the norms that C46 left out; with a factor of the inverse, the distance is the Euclidean one of the images under an injective linear map; a triangular factor with positive diagonal of a diagonal matrix is diagonal |
| C129 | proved | `Lemmas/SqrtStep` bounds one damped step in rationals: the new value of x squared minus 2 is at most 0.2503 times the old one plus 1e-13, and at least -1; the run follows by the levels 1e4 * 0.26^i + 1e-12 and `contracting_run_at`; one more run, from -0.3, is evaluated as an example |
| C130 | proved | `Model/PosixBessel` is written for towers of jets (`Model/NestedJet`). `posixJ_rec` and `posixJ_deriv` extend recurrence and derivative from natural orders (series of C91) to all integers by the symmetry in the order; `posix_rep` is an induction over the depth with the invariant `TowerRep` of C106 |
| C131 | proved | Same run engine as C119 (`contracting_run`); the levels bound every coefficient, the cost is compared by sums of squares (`CostS`, proved for `squaredNorm()` and `norm()`), `ldlt_diag` gives the solution of the damped system; examples: the rectangle of tests/userdef_params.cpp and the prior of tests/optimizers.cpp |
| C132 | proved | `SFl` (Num/SignedZero) adds `-0` to `Fl`; `run_num` (Lemmas/NumHom): a map of arithmetics that commutes with the solver commutes with whole runs, by induction over the retry loop and the iterations; Lemmas/NumSolvers shows that it does for the three solvers and the LDLT, with the invariant that the accumulated `bad_factor` is not negative; example: tests/userdef_params.cpp from a start with `-0` |
| C133 | proved | `ZJet` over `SFl` (Model/JetSign); products with `copysign(1, x)` are exact (`one_mul'`, `mone_mul`), the term `abs(f.a) * 0 * g.v` is a zero, and adding it changes no number; examples: `abs` at both zeros, `copysign` with `-1` and with `-0` |
| C134 | partial | `Model/Printing` has the loops by index (`streamSeq`, `printMatrix`, `formatDense`, `logMat`); `Props/Printing`: the loops write a `join`, and the reader (`fields`, `words`, `table`), which knows nothing of the loops, undoes it; the width is the maximum of the lengths (`width_spec`); examples: a 2x2 matrix with entries of different lengths, the same step in both builds |
| C135 | partial | `Model/Rectangle`, residuals on jets as expressions with the branch that `max` takes; derivatives by `C36_jacobian`, the explicit Jacobian by uniqueness; `C135_minima` by paths along which the cost falls: in the coordinates diagonal and ratio of the sides above the kink, diagonal and width below it, and by cases at the kink and at height 0; example: the start of the test |
| C136 | proved | `Model/Landscape`, Props/Landscape, Props/LandscapeHard, Props/LandscapeMore: gradients by the calculus of `HasGrad`; stationary points by elimination (Freudenstein and Roth in closed form; Himmelblau and Beale by a quintic and a quartic whose other roots are saddles, shown by a path along which the cost falls); four zeros by the intermediate value theorem and divided differences; the diagonal of Jennrich and Sampson by the one sign change of its polynomial in exp a, across the diagonal by `cosh (c x) - 1 <= c^2 (cosh x - 1)`; other minima of the plateau as products of maxima of one factor on compact intervals; example: start of Rosenbrock, a path below the ridge |
| C137 | proved | Props/NewtonTests: the Newton step in closed form (`powell_step`, `rosen_step`) in the run theorem `gn_quad_run`, then induction along the path of the run; the failing starts by `run_first_bad` (C96); example: the start (3, -1, 0, 1) of the Powell test, Rosenbrock from (1.09, -1000) and (0, 0) |
| C138 | proved | Lemmas/FailedTries follows a run all of whose iterations after the first are rejected, with a step that changes with the iteration; Props/GivesUp gives the dampings (lamTry), the state of the solver before each iteration (TryOk: rebuilt in the first three iterations, the system of x0 rescaled from then on), the general theorem, and the square root: from a small start every step with a damping of at most 1/150 overshoots to a point with a larger cost. |
| C139 | partial | `Model/PriorBench` (the two branches), `Props/PriorBench`: derivatives coordinate by coordinate; the run by `contracting_run_at` with the step in closed form; the builds are those of the problem with the repaired branch, because as long as every step is accepted only the branch with derivatives is called; example: a negative and a small standard deviation |
| C140 | partial | `Model/SolverCalls` (a language of calls on the solver of `Model/Solvers`, the function of the test with its counter), `Props/SolverCalls`: induction on the list of calls with the accumulated factor of the diagonal as invariant; example: the numbers of the test |
| C141 | proved | `Model/SparseBench` (residuals, cost, the four Hessians), `Lemmas/DiagRate` (the run of C139 for any positive diagonal matrix and any cost that shrinks towards the minimum), `Props/SparseBench`: the sparse run is the dense one by C61; example: the sizes 10 and 1000 of the benchmark |
| C142 | partial | `Props/Forgot` on `Model/Solvers`, `Model/Optimizer` and `Model/EigenLDLT`: every `Build` is refused, induction on the attempts; without the check the decomposition of the zero matrix is computed and the first iteration is followed; the function of the test is an instance |

## 7. Mutation tests

`seeded/LOG.jsonl` has one line per attempt: the definition edited, the edit (old and new text), the claim it breaks, every declaration that
failed to build, the property theorems among them, theorems tightened as a consequence. The procedure: in a copy of the project the model is
edited like a realistic bug; the project is built; each failing proof is replaced by `sorry` (in the copy) and the build is repeated, so
that every declaration that fails by itself is recorded. `theorems_failed` lists the property theorems that failed themselves or depend on a lemma that failed.
Survivors are either equivalent edits (noted) or lead to a tightened theorem.
