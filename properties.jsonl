{"id": "C01", "title": "Optimize returns after a bounded amount of work", "statement": "If options.max_consec_failures is not 0, a call to Optimize on a loss/accumulation function that itself returns always returns. It runs at least one and at most max_iters+1 outer iterations (max_iters+2 with check_final_cost), and it calls the user's function at most max_consec_failures times per outer iteration.", "quantifier": "every option set with max_consec_failures>0 and max_iters below the int limit, every solver type, every user function (also stateful or non-deterministic), every clock, every start point", "why_tests_cant": "a test sees finitely many runs; the claim is about every possible pattern of solver failures and cost values", "anchors": ["include/tinyopt/optimizers/optimizer.h:Optimizer_::OptimizeAcc", "include/tinyopt/optimizers/optimizer.h:Optimizer_::Step"]}
{"id": "C02", "title": "Optimize terminates for every option value (also with the consecutive-failure limit disabled)", "statement": "For every value of the options, in particular max_consec_failures=0 (documented way to disable the limit), Optimize returns.", "quantifier": "every option set, every user function and solver", "why_tests_cant": "non-termination can not be observed by a finite test and only shows up on inputs for which the linear solve fails for ever", "anchors": ["include/tinyopt/optimizers/optimizer.h:Optimizer_::Step", "include/tinyopt/optimizers/options.h:Options::max_consec_failures"]}
{"id": "C03", "title": "Per-iteration histories are aligned", "statement": "In the returned Output, errs, deltas2 and successes have the same length, and that length is num_iters, or num_iters-1 exactly when the last iteration failed before producing a step (failure stop reason, or a time-out that replaced it).", "quantifier": "every run shorter than 65536 iterations, every solver, user function and clock", "why_tests_cant": "the claim is about all interleavings of early exits inside an iteration", "anchors": ["include/tinyopt/optimizers/optimizer.h:Optimizer_::Step", "include/tinyopt/output.h:Output"]}
{"id": "C04", "title": "final_cost is the best cost seen and successes marks the improvements", "statement": "final_cost.cost equals the minimum of errs (when errs is not empty), successes[i] is true exactly when errs[i] is strictly smaller than all earlier entries, and final_cost never increases during a run.", "quantifier": "every run shorter than 65536 iterations, every solver, user function and clock, IEEE-754 comparison semantics", "why_tests_cant": "holds for all cost sequences, including ties, NaN, infinities and plateaus", "anchors": ["include/tinyopt/optimizers/optimizer.h:Optimizer_::Step", "include/tinyopt/output.h:Output::final_cost"]}
{"id": "C05", "title": "x is always the best evaluated point, or that point plus exactly one proposed step", "statement": "At the end of every iteration of Optimize (hence also when it returns), x equals the point at which final_cost was measured, or that point moved by exactly one step proposed by the solver and not yet judged. When the run ends because a step failed (error not decreasing, NaN/Inf, solver failure) x is exactly the best point.", "quantifier": "every run shorter than 65536 iterations, every solver, user function and parameter type, rounding included", "why_tests_cant": "the roll-back logic depends on the whole accept/reject history of the run", "anchors": ["include/tinyopt/optimizers/optimizer.h:Optimizer_::OptimizeAcc", "include/tinyopt/traits.h:params_trait::PlusEq"]}
{"id": "C06", "title": "The returned x has the reported final_cost (or better)", "statement": "Evaluating the user's cost at the returned x gives a value not larger than the reported final_cost, at least when check_final_cost is enabled.", "quantifier": "every deterministic cost function, every option set, every start point", "why_tests_cant": "needs reasoning about the last, never re-evaluated, update for all cost functions", "anchors": ["include/tinyopt/optimizers/optimizer.h:Optimizer_::OptimizeAcc", "include/tinyopt/optimizers/options.h:Options::check_final_cost"]}
{"id": "C07", "title": "Every stop reason is justified", "statement": "If Optimize reports kMinError, kMinRelError, kMinDeltaNorm or kMinGradNorm then the corresponding option is enabled and the quantity of the last iteration is strictly below it (last error, relative decrease with the best cost in the range in which the criterion is active, squared step, squared gradient); kMaxConsecNoDecr / kMaxNoDecr imply the corresponding counter reached its option; kUserStopped implies a user callback returned true; kTimedOut implies the measured duration exceeds max_duration_ms>0; kMaxIters implies the whole iteration budget was used.", "quantifier": "every run shorter than 65536 iterations", "why_tests_cant": "the reasons are produced in several places and may overwrite each other; only an invariant over all paths excludes a wrong report", "anchors": ["include/tinyopt/optimizers/optimizer.h:Optimizer_::Step", "include/tinyopt/optimizers/optimizer.h:Optimizer_::OptimizeAcc", "include/tinyopt/stop_reasons.h:StopReason"]}
{"id": "C08", "title": "A finished Optimize always reports why it stopped", "statement": "After Optimize returns, stop_reason is not kNone, and num_iters is the number of iterations that were run.", "quantifier": "every value of max_iters (options.max_iters is any 16 bit value)", "why_tests_cant": "the failing values are at the end of the integer range and need 65536 iterations", "anchors": ["include/tinyopt/optimizers/optimizer.h:Optimizer_::OptimizeAcc", "include/tinyopt/output.h:Output::num_iters"]}
{"id": "C09", "title": "Succeeded() and Converged() are faithful", "statement": "Converged() is true exactly for kMinError, kMinRelError, kMinDeltaNorm, kMinGradNorm. Succeeded() is true exactly for the non negative reasons, and a run in which the last iteration failed (no residuals, NaN/Inf, solver failure, out of memory) never reports Succeeded().", "quantifier": "every run, every clock", "why_tests_cant": "depends on the clock racing with a failure in the same iteration", "anchors": ["include/tinyopt/output.h:Output::Succeeded", "include/tinyopt/output.h:Output::Converged", "include/tinyopt/optimizers/optimizer.h:Optimizer_::OptimizeAcc"]}
{"id": "C10", "title": "Failures are classified correctly", "statement": "Without time limit: if the first evaluation returns no residuals, Optimize stops at once with kSkipped; if it returns a NaN or infinite cost, it stops with kSystemHasNaNOrInf; if the linear solve fails max_consec_failures times in a row it stops with kSolverFailed; a dimension of 0 or less gives kSkipped and an allocation failure kOutOfMemory without ever calling the user's function. In all these cases x is unchanged at the first iteration.", "quantifier": "every solver, user function and option set (max_duration_ms=0)", "why_tests_cant": "claim over all cost values/solver behaviours, including combinations", "anchors": ["include/tinyopt/optimizers/optimizer.h:Optimizer_::Step", "include/tinyopt/optimizers/optimizer.h:Optimizer_::ResizeIfNeeded"]}
{"id": "C11", "title": "NaN and infinity never enter the results", "statement": "No entry of errs or deltas2 is NaN or infinite, final_cost is never NaN or infinite, and x is never moved by a step whose squared norm is NaN or infinite.", "quantifier": "every run, every user function (which may return NaN/Inf at any time)", "why_tests_cant": "needs all combinations of bad values at all iterations", "anchors": ["include/tinyopt/optimizers/optimizer.h:Optimizer_::Step", "include/tinyopt/optimizers/optimizer.h:Optimizer_::OptimizeAcc"]}
{"id": "C12", "title": "max_iters bounds the number of updates of x", "statement": "With max_iters=N (and no check_final_cost) x is moved at most N times, in particular max_iters=0 leaves x unchanged.", "quantifier": "every N, every user function", "why_tests_cant": "universal over N and cost functions", "anchors": ["include/tinyopt/optimizers/optimizer.h:Optimizer_::OptimizeAcc", "include/tinyopt/optimizers/options.h:Options::max_iters"]}
{"id": "C13", "title": "The total failure limit is respected", "statement": "If max_total_failures=M>0, Optimize stops as soon as the number of failures reported in num_failures reaches M; num_failures counts all failed steps and failed linear solves of the run.", "quantifier": "every run, every user function", "why_tests_cant": "depends on the order of two kinds of failures and on an 8 bit counter", "anchors": ["include/tinyopt/optimizers/optimizer.h:Optimizer_::Step", "include/tinyopt/output.h:Output::num_failures"]}
{"id": "C14", "title": "The time limit stops the run at the first iteration boundary after it is exceeded", "statement": "If max_duration_ms>0 then Optimize returns at the end of the first iteration at which the accumulated duration exceeds max_duration_ms, with stop reason kTimedOut; if max_duration_ms<=0, kTimedOut is never reported.", "quantifier": "every clock behaviour, every run", "why_tests_cant": "timing dependent behaviour can not be enumerated by tests", "anchors": ["include/tinyopt/optimizers/optimizer.h:Optimizer_::OptimizeAcc"]}
{"id": "C15", "title": "A user stop callback ends the run and is only consulted when no other criterion fired", "statement": "If stop_callback returns true in an iteration, Optimize returns after that iteration with kUserStopped (or kTimedOut) and never calls the user's function or callbacks again; the callback is not called in an iteration that already met a numerical criterion or failed.", "quantifier": "every callback (stateful too), every run", "why_tests_cant": "universal over callback behaviours and all positions in a run", "anchors": ["include/tinyopt/optimizers/optimizer.h:Optimizer_::Step", "include/tinyopt/optimizers/options.h:Options::stop_callback"]}
{"id": "C16", "title": "reset() makes a used optimizer behave like a new one", "statement": "After reset(), an Optimizer object that was used for any number of earlier runs produces for every x and function exactly the same output and x as a newly constructed one; Gauss-Newton and Gradient Descent optimizers do so even without reset().", "quantifier": "every earlier history of the object, every following problem", "why_tests_cant": "the state left over depends on the whole earlier history", "anchors": ["include/tinyopt/solvers/lm.h:SolverLM::reset", "include/tinyopt/optimizers/optimizer.h:Optimizer_::reset", "include/tinyopt/solvers/gn.h:SolverGN::Build"]}
{"id": "C17", "title": "Optimize on a re-used LM optimizer does not depend on earlier runs", "statement": "Calling Optimize twice on the same Levenberg-Marquardt optimizer object, the second result only depends on the second start point and function.", "quantifier": "every pair of problems", "why_tests_cant": "needs the adversarial choice of an earlier run", "anchors": ["include/tinyopt/solvers/lm.h:SolverLM", "include/tinyopt/optimizers/optimizer.h:Optimizer_::OptimizeAcc"]}
{"id": "C18", "title": "The user's accumulation function always starts from a cleared system", "statement": "Whenever a solver asks the user's function for gradient and Hessian it passes an all zero gradient and an all zero Hessian, whatever happened before; so accumulating into them (+=) is as good as assigning.", "quantifier": "every history of the solver object, every x", "why_tests_cant": "stale values depend on history", "anchors": ["include/tinyopt/solvers/gn.h:SolverGN::Build", "include/tinyopt/solvers/lm.h:SolverLM::Build", "include/tinyopt/solvers/gd.h:SolverGD::Build"]}
{"id": "C19", "title": "Output statistics report what happened", "statement": "Output.num_residuals is the number of residuals of the final cost and Output.num_diff_used is true exactly if numerical differentiation was used; Covariance(rescaled=true) rescales by the residual variance when there are more residuals than parameters.", "quantifier": "every run", "why_tests_cant": "universal over runs; no run has the stated value", "anchors": ["include/tinyopt/output.h:Output::num_residuals", "include/tinyopt/output.h:Output::num_diff_used", "include/tinyopt/output.h:Output::Covariance", "include/tinyopt/optimizers/optimizer.h:Optimizer_::Optimize"]}
{"id": "C20", "title": "The LM damping stays in its range", "statement": "After every accepted or rejected step the damping factor lies in [damping_range[0], damping_range[1]] whatever the sequence of steps and step qualities; if damping_init and range are positive the damping is always positive.", "quantifier": "every sequence of good/bad/failed steps and qualities, every option set with a non-empty range", "why_tests_cant": "universal over unbounded step sequences", "anchors": ["include/tinyopt/solvers/lm.h:SolverLM::GoodStep", "include/tinyopt/solvers/lm.h:SolverLM::BadStep"]}
{"id": "C21", "title": "Consecutive bad steps raise the LM damping super-exponentially until the maximum", "statement": "After k consecutive rejected steps from damping l0 (bad_factor b>=1) the damping is min(l0*b^(k(k+1)/2), max) in exact arithmetic; also with rounding it never decreases on a bad step, and it reaches the maximum after finitely many bad steps (b>1 in exact arithmetic, b>=2 with rounding). A good step after a good step multiplies by good_factor (clamped).", "quantifier": "every k, l0 in range, b>=1", "why_tests_cant": "closed form for every length of the sequence", "anchors": ["include/tinyopt/solvers/lm.h:SolverLM::BadStep", "include/tinyopt/solvers/lm.h:SolverLM::GoodStep"]}
{"id": "C22", "title": "damping_init=0 disables the damping", "statement": "With lm.damping_init=0 Levenberg-Marquardt behaves like Gauss-Newton for the whole run and damping_range is not used.", "quantifier": "every run with damping_init=0", "why_tests_cant": "universal over runs", "anchors": ["include/tinyopt/optimizers/options.h:Options::LM::damping_init", "include/tinyopt/solvers/lm.h:SolverLM::GoodStep"]}
{"id": "C23", "title": "The exported Hessian excludes the damping", "statement": "final_hessian of a Levenberg-Marquardt run is exactly the un-damped Hessian that the user's function accumulated at the last rebuild (exact arithmetic).", "quantifier": "every sequence of accepted/rejected/failed steps and rebuild/eval-only iterations", "why_tests_cant": "damping is applied and removed multiplicatively along an arbitrary history", "anchors": ["include/tinyopt/solvers/lm.h:SolverLM::Hessian", "include/tinyopt/solvers/lm.h:SolverLM::Build", "include/tinyopt/output.h:Output::final_hessian"]}
{"id": "C24", "title": "A good step after bad steps reverts the last damping increase", "statement": "When a step is accepted after rejected ones, the damping is divided by exactly the factor of the last rejected step (and multiplied by good_factor), as documented in GoodStep.", "quantifier": "every number of preceding bad steps, every factor", "why_tests_cant": "universal over step sequences", "anchors": ["include/tinyopt/solvers/lm.h:SolverLM::GoodStep"]}
{"id": "C25", "title": "LM and GN steps are descent directions", "statement": "For a positive semi-definite Hessian with positive diagonal and damping > 0 the damped system is positive definite, the step solving it is unique, and it is a strict descent direction (grad . dx < 0) unless the gradient is zero; for positive definite Hessians this holds without damping. The step shrinks (in the diagonal norm) when the damping grows.", "quantifier": "every dimension, every PSD Hessian, every gradient, every damping", "why_tests_cant": "universal over matrices of all sizes", "anchors": ["include/tinyopt/solvers/lm.h:SolverLM::Build", "include/tinyopt/solvers/gn.h:SolverGN::Solve", "include/tinyopt/math.h:SolveLDLT"]}
{"id": "C26", "title": "Gradient clipping bounds every component", "statement": "With grad_clipping=c>0 every gradient component used by any solver is in [-c,c], components already inside are unchanged, and every Gradient Descent step component is bounded by lr*c; grad_clipping=0 leaves the gradient unchanged.", "quantifier": "every gradient, dimension and c>0", "why_tests_cant": "universal over vectors", "anchors": ["include/tinyopt/solvers/base.h:SolverBase::Clamp", "include/tinyopt/solvers/gd.h:SolverGD::Solve"]}
{"id": "C27", "title": "Only the upper triangle of H matters when LDLT is used or H_is_full=false", "statement": "With use_ldlt=true, or with use_ldlt=false and H_is_full=false, two user functions filling the same upper triangle (and gradient and cost) lead to the same step, whatever they put below the diagonal.", "quantifier": "every Hessian, dimension and solver history", "why_tests_cant": "universal over matrices", "anchors": ["include/tinyopt/math.h:SolveLDLT", "include/tinyopt/solvers/gn.h:SolverGN::Build", "include/tinyopt/solvers/lm.h:SolverLM::Build"]}
{"id": "C28", "title": "Gauss-Newton solves linear least squares in one step", "statement": "For residuals r(x)=A x - b with A of full column rank, Optimize with Gauss-Newton (exact arithmetic) puts x at the unique global minimiser after the first iteration and never leaves it.", "quantifier": "every A, b, start point, dimension", "why_tests_cant": "universal over problems", "anchors": ["include/tinyopt/solvers/gn.h:SolverGN", "include/tinyopt/diff/optimize_autodiff.h:OptimizeWithAutoDiff"]}
{"id": "C29", "title": "Cost scaling options do not change accept/reject decisions", "statement": "For non-negative costs and a constant number of residuals, every combination of use_squared_norm, downscale_by_2 and normalize orders any two costs in the same way as the raw cost, and reports the raw cost or its square root, divided by 2 and by the number of residuals as requested.", "quantifier": "every pair of costs, every combination of options, exact arithmetic and IEEE-754 double precision", "why_tests_cant": "universal over reals", "anchors": ["include/tinyopt/solvers/base.h:SolverBase::NormalizeCost"]}
{"id": "C30", "title": "Accumulating costs is order independent and counts residuals and inliers exactly", "statement": "Cost::operator+= (of a cost, or of a vector of residuals, which are all inliers) adds cost and number of residuals and keeps the messages; NumInliers()/NumOutliers() of the sum are the sums of those of the parts and add up to the number of residuals; summing in any order or grouping gives the same cost, residual and inlier counts.", "quantifier": "every list of costs (exact arithmetic)", "why_tests_cant": "universal over lists and orders", "anchors": ["include/tinyopt/cost.h:Cost::operator+=", "include/tinyopt/cost.h:Cost::AddResiduals"]}
{"id": "C31", "title": "Inlier counting is exact in float arithmetic", "statement": "A Cost built from k inliers among n residuals (single precision ratio) reports NumInliers()=k, and NumInliers()+NumOutliers()=n.", "quantifier": "every k<=n", "why_tests_cant": "fails only for particular pairs (k,n)", "anchors": ["include/tinyopt/cost.h:Cost::NumInliers", "include/tinyopt/cost.h:Cost::NumOutliers"]}
{"id": "C32", "title": "PlusEq adds every coordinate of delta to exactly one coordinate of the parameters", "statement": "For parameters made of scalars, matrices, std::array, std::vector and std::pair, nested arbitrarily, dims(x) is the number of scalar coordinates, PlusEq with a delta of dims(x) entries reads only inside delta, keeps the shape of x and adds delta coordinate-wise to the flattened parameters; consequently PlusEq(delta) followed by PlusEq(-delta) restores x.", "quantifier": "every nested parameter type and value and every delta", "why_tests_cant": "universal over all nested types", "anchors": ["include/tinyopt/traits.h:params_trait"]}
{"id": "C33", "title": "SQRT is the exact integer square root", "statement": "For every non-negative int N, SQRT(N) terminates without overflow or division by zero and returns the largest r with r*r<=N; for negative N it returns N (so Dynamic is kept).", "quantifier": "every int N", "why_tests_cant": "2^32 inputs and loop termination", "anchors": ["include/tinyopt/math.h:SQRT"]}
{"id": "C34", "title": "MaxAbsDiff is the maximum norm of the difference of two sparse matrices", "statement": "For two sparse matrices of equal size MaxAbsDiff returns max |A(i,j)-B(i,j)| over all entries (missing entries are 0), it is symmetric and 0 only for equal matrices; for different sizes it throws.", "quantifier": "every pair of sparse matrices with any sparsity patterns", "why_tests_cant": "universal over patterns and values", "anchors": ["include/tinyopt/math.h:MaxAbsDiff"]}
{"id": "C35", "title": "Numerical differentiation is exact where it should be and its error is bounded", "statement": "NumEval does not modify x, evaluates the function exactly at x, x+h e_r and x-h e_r, and returns the exact Jacobian for affine functions (all methods) and for quadratic functions (central); for smooth functions the forward error is at most M2*h/2 and the central error at most M3*h^2/6.", "quantifier": "every function, dimension, step h>0", "why_tests_cant": "universal over functions", "anchors": ["include/tinyopt/diff/num_diff.h:NumEval", "include/tinyopt/diff/num_diff.h:EstimateNumJac"]}
{"id": "C36", "title": "Automatic differentiation returns the exact derivative of every composed expression", "statement": "For every expression built from Jet arithmetic and elementary functions, evaluated with seeded parameters inside the domain, the scalar part is the value of the expression and the infinitesimal part is its exact gradient (Jacobian rows for several outputs).", "quantifier": "every expression, every number of variables, every point of the domain", "why_tests_cant": "unbounded set of expressions", "anchors": ["include/tinyopt/3rdparty/ceres/jet.h:Jet", "include/tinyopt/diff/auto_diff.h:Eval"]}
{"id": "C37", "title": "Dynamic-size jets behave like fixed-size jets", "statement": "Every Jet operation gives the same result for jets with run-time dimension as for jets with compile-time dimension, an unset infinitesimal part counting as zeros, without out of bounds access.", "quantifier": "every expression, every mix of connected and constant (unset) jets", "why_tests_cant": "universal over expressions and unset patterns", "anchors": ["include/tinyopt/3rdparty/ceres/jet.h:Jet"]}
{"id": "C38", "title": "The AD least-squares system is the Gauss-Newton system of the residuals", "statement": "For NLLS the accumulated cost is the sum of squared residuals, the gradient is J^T r (half the gradient of the cost) and the Hessian J^T J, hence symmetric positive semi-definite with the correct null space.", "quantifier": "every residual function, dimension and point", "why_tests_cant": "universal over functions", "anchors": ["include/tinyopt/diff/optimize_autodiff.h:OptimizeWithAutoDiff"]}
{"id": "C39", "title": "Gradient Descent descends on the user's scalar cost", "statement": "For a differentiable scalar cost function passed to Optimize with the GradientDescent solver, the step is a descent direction of that cost wherever its gradient is non zero.", "quantifier": "every scalar cost function (also with negative values)", "why_tests_cant": "universal over cost functions", "anchors": ["include/tinyopt/diff/optimize_autodiff.h:OptimizeWithAutoDiff", "include/tinyopt/diff/num_diff.h:CreateNumDiffFunc1"]}
{"id": "C40", "title": "CheckGradient accepts correct gradients and rejects wrong ones", "statement": "CheckGradient returns true exactly if the user's gradient is component-wise within eps of the numerical gradient; so it accepts the exact gradient of every quadratic cost, and if it accepts for a cost with third derivatives bounded by M, the user's gradient is within eps + M (eps/10)^2/6 of the true gradient.", "quantifier": "every cost function, gradient and eps>0", "why_tests_cant": "universal over functions", "anchors": ["include/tinyopt/diff/gradient_check.h:CheckGradient"]}
{"id": "C41", "title": "Robust losses return the right scale", "statement": "For Truncated, Huber, Tukey, Arctan, Cauchy, GemanMcClure and BlakeZisserman, the exported scale is the derivative of the loss with respect to the squared norm (away from the threshold kink of Truncated), and the exported Jacobian of the vector losses is the gradient of the loss.", "quantifier": "every residual, every threshold > 0", "why_tests_cant": "universal over reals", "anchors": ["include/tinyopt/losses/robust_norms.h"]}
{"id": "C42", "title": "Robust losses are monotone, continuous, bounded and down-weight outliers", "statement": "Every robust loss is continuous and non-decreasing in the squared norm, is 0 at 0 (except BlakeZisserman), does not exceed the squared norm (3x for Tukey), Truncated and Tukey never exceed th2 and GemanMcClure never exceeds 1; scales are in [0,1] (3 for Tukey) and non-increasing.", "quantifier": "every pair of squared norms, every threshold > 0", "why_tests_cant": "universal over reals", "anchors": ["include/tinyopt/losses/robust_norms.h"]}
{"id": "C43", "title": "Norms export correct Jacobians", "statement": "SquaredL2, L2, L1 and Linf return the norm and (where differentiable) its derivative, for scalars and for vectors.", "quantifier": "every scalar and vector", "why_tests_cant": "universal over reals and dimensions", "anchors": ["include/tinyopt/losses/norms.h"]}
{"id": "C44", "title": "Softmax is a probability distribution and SafeSoftmax equals it", "statement": "Softmax and SafeSoftmax of a non-empty vector have positive entries summing to 1, are equal to each other in exact arithmetic, invariant to adding a constant, and export the true Jacobian, which is symmetric with zero row sums; all exponentials evaluated by SafeSoftmax are of non-positive arguments.", "quantifier": "every vector of every dimension", "why_tests_cant": "universal", "anchors": ["include/tinyopt/losses/classif.h"]}
{"id": "C45", "title": "Activation functions export correct derivatives", "statement": "Sigmoid, Tanh, ReLU and LeakyReLU export the derivative of the activation, for vectors and scalars.", "quantifier": "every input where the activation is differentiable", "why_tests_cant": "universal over reals", "anchors": ["include/tinyopt/losses/activations.h", "include/tinyopt/losses/helpers.h"]}
{"id": "C46", "title": "Mahalanobis norms and whitening agree", "statement": "The squared norm of the whitened residual equals the squared Mahalanobis norm x^T S^-1 x, the exported Jacobians are the derivatives, and both are invariant to the lower triangle of S.", "quantifier": "every SPD covariance, residual and dimension", "why_tests_cant": "universal over matrices", "anchors": ["include/tinyopt/losses/mahalanobis.h"]}
{"id": "C47", "title": "Distances are metrics with consistent Jacobians; the cosine is differentiated correctly", "statement": "Euclidean, Manhattan and Linf are symmetric, satisfy the triangle inequality and vanish only for equal points, and export opposite Jacobians for the two arguments; Cosine returns a.b/(|a||b|) and its two Jacobians.", "quantifier": "every pair/triple of vectors", "why_tests_cant": "universal", "anchors": ["include/tinyopt/distances.h"]}
{"id": "C48", "title": "Solver dispatch never runs a solver on an incompatible function", "statement": "Optimize runs a second order solver exactly for functions that are not gradient-only, Gradient Descent exactly for scalar cost functions or gradient-only accumulation functions, and throws invalid_argument otherwise without modifying x.", "quantifier": "every combination of solver option and function signature", "why_tests_cant": "compile-time dispatch: each test instantiates one combination", "anchors": ["include/tinyopt/optimize.h:Optimize"]}
{"id": "C49", "title": "Describing the result of a run is always safe", "statement": "StopReasonDescription never reads an empty history, for every Output returned by Optimize (also for a default constructed Output).", "quantifier": "every Output", "why_tests_cant": "undefined behaviour may go unnoticed by tests", "anchors": ["include/tinyopt/stop_reasons.h:StopReasonDescription"]}
{"id": "C50", "title": "Every accepted LM step is computed from the system at the current point", "statement": "Whenever a step is accepted (cost decreased at the current x) the update then applied to x was solved from the gradient and Hessian of that same x.", "quantifier": "every run of Levenberg-Marquardt", "why_tests_cant": "depends on the accept/reject history", "anchors": ["include/tinyopt/solvers/lm.h:SolverLM::Build", "include/tinyopt/optimizers/optimizer.h:Optimizer_::OptimizeAcc"]}
{"id": "C51", "title": "check_min_H_diag rejects a Hessian only when all diagonal coefficients are below the threshold", "statement": "With check_min_H_diag=t>0 the build is rejected exactly when every diagonal coefficient of H is below t in magnitude, as documented.", "quantifier": "every Hessian", "why_tests_cant": "universal over matrices", "anchors": ["include/tinyopt/solvers/gn.h:SolverGN::Build", "include/tinyopt/optimizers/options.h:Options::Hessian::check_min_H_diag"]}
{"id": "C52", "title": "LM never increases the cost on linear least squares", "statement": "For residuals A x - b, every Levenberg-Marquardt step with positive definite damped Hessian strictly decreases the sum of squared residuals unless the gradient is already zero.", "quantifier": "every A, b, x, damping", "why_tests_cant": "universal over problems", "anchors": ["include/tinyopt/solvers/lm.h:SolverLM"]}
{"id": "C53", "title": "Covariance() is the inverse of the saved Hessian", "statement": "For every saved Hessian with positive definite symmetric completion of its upper triangle, Output::Covariance() without rescaling is its inverse, whatever the lower triangle holds.", "quantifier": "every Hessian and dimension (exact arithmetic)", "why_tests_cant": "universal over matrices", "anchors": ["include/tinyopt/output.h:Output::Covariance", "include/tinyopt/math.h:InvCov"]}
{"id": "C54", "title": "CheckResidualsGradient accepts exactly the gradients and Hessians close to the numerical ones", "statement": "With the central method CheckResidualsGradient returns true exactly if every component of the user's gradient is within eps of the difference quotient of s*||r||^2 (s = 1/2 with downscaling, else 1) and, when the Hessian is checked, every coefficient of it is within eps of J^T J with J the difference quotients of the residuals; so for affine residuals A y + b it accepts A^T r and A^T A for every eps > 0.", "quantifier": "every residual function, gradient, Hessian, point and eps", "why_tests_cant": "universal over functions", "anchors": ["include/tinyopt/diff/gradient_check.h:CheckResidualsGradient"]}
{"id": "C55", "title": "The optimizer tells the solver about every step, in order and exactly once", "statement": "In every run: (1) the sequence of GoodStep/BadStep calls equals the recorded costs of output.errs from the second on, a GoodStep for each recorded success (with quality min(1, relative decrease with respect to the last accepted cost) when use_step_quality is set, 0 otherwise), a BadStep for each recorded rejection; (2) every iteration starts with the resize check, then build attempts with one FailedStep after each failed one, then at most one GoodStep/BadStep (none in the first iteration), then one Rebuild unless the iteration ended the run early; (3) Rebuild(false) is requested exactly after an iteration that did not succeed and was not preceded by a success, or for a final cost check.", "quantifier": "every run, solver, problem, options, history of failures", "why_tests_cant": "universal over call sequences; counters wrap only in long runs", "anchors": ["include/tinyopt/optimizers/optimizer.h:Optimizer_::OptimizeAcc", "include/tinyopt/optimizers/optimizer.h:Optimizer_::Step"]}
{"id": "C56", "title": "num_consec_failures is the number of failures since the last good step", "statement": "At the end of every run that recorded a cost, output.num_consec_failures equals the number of failed attempts and rejected steps since the last accepted step or the first evaluation (modulo 256).", "quantifier": "every run with at most 65536 iterations", "why_tests_cant": "depends on the whole failure history; 8 bit counter", "anchors": ["include/tinyopt/optimizers/optimizer.h:Optimizer_::Step", "include/tinyopt/output.h:Output::num_consec_failures"]}
{"id": "C57", "title": "With step quality, better steps leave less damping", "statement": "With use_step_quality_approx a good step of quality q multiplies the LM damping by max(good_factor, 1-(2q-1)^3) (Nielsen's rule), clamped to damping_range: quality 1 gives good_factor, the factor is below 2, and of two good steps from the same state the one of better quality never leaves more damping.", "quantifier": "every state, options and pair of qualities in [0,1]", "why_tests_cant": "relates two executions; universal over reals", "anchors": ["include/tinyopt/solvers/lm.h:SolverLM::GoodStep", "include/tinyopt/optimizers/options.h:Options::use_step_quality_approx"]}
{"id": "C58", "title": "With automatic or numerical differentiation the solvers take the Gauss-Newton step of the user's residuals", "statement": "Optimize on a residual function: at every point where the system is rebuilt the GN/LM step solves (J'J + lambda diag J'J) dx = -J'r with the true Jacobian J of the residuals there, and the sum of squared residuals decreases to first order along it (unless its gradient is zero: then the step is zero). On affine residuals of full column rank a GN run ends at the global minimiser after one step, with automatic differentiation and with every numerical differentiation method and step size, and every LM iteration decreases the sum of squares.", "quantifier": "every residual expression, point, dimension, damping, options", "why_tests_cant": "composes differentiation, accumulation, solver and loop; universal over real functions", "anchors": ["include/tinyopt/diff/optimize_autodiff.h:OptimizeWithAutoDiff", "include/tinyopt/diff/num_diff.h:CreateNumDiffFunc2", "include/tinyopt/solvers/gn.h:SolverGN::Solve", "include/tinyopt/solvers/lm.h:SolverLM::Build"]}
{"id": "C59", "title": "Automatic and numerical differentiation give the optimizer the same problem", "statement": "For the same residuals, OptimizeWithAutoDiff and CreateNumDiffFunc2 report the same cost, and the same gradient and Hessian where the difference quotients are exact (affine residuals; quadratic ones with a central method).", "quantifier": "every residual function and point", "why_tests_cant": "relates two implementations over all functions", "anchors": ["include/tinyopt/diff/optimize_autodiff.h:OptimizeWithAutoDiff", "include/tinyopt/diff/num_diff.h:CreateNumDiffFunc2"]}
{"id": "C60", "title": "Gradient Descent converges on smooth costs with a small learning rate", "statement": "If the gradient of the user's cost is Lipschitz with constant K and 0 < lr < 2/K, every Gradient Descent iteration (with or without gradient clipping) decreases the cost by at least lr(1-K lr/2)|clip g|^2 or is at a stationary point and stays; for a cost bounded below the smallest squared (clipped) gradient norm of a run is O(1/iterations).", "quantifier": "every smooth cost, start, options and number of iterations", "why_tests_cant": "convergence statement over all executions and all smooth functions", "anchors": ["include/tinyopt/solvers/gd.h:SolverGD::Solve", "include/tinyopt/solvers/gd.h:SolverGD::Build", "include/tinyopt/optimizers/optimizer.h:Optimizer_::operator()"]}
{"id": "C61", "title": "A sparse Hessian gives the same run as a dense one", "statement": "Optimizing with H_t = SparseMatrix gives, iteration by iteration, the same points, costs, steps, decisions, counters, stop reason and exported Hessian as optimizing the same function with a dense Hessian and use_ldlt = true (Gauss-Newton with use_ldlt = false and H_is_full = false: on the mirrored upper triangle). In particular the sparse Levenberg-Marquardt never increases the cost of a linear least squares problem.", "quantifier": "for all user functions whose sparse and dense Hessians have the same coefficients, stored patterns, options, damping states, worlds, starting points and runs", "why_tests_cant": "equality of two programs over all runs; tests compare the final x on a few problems", "anchors": ["include/tinyopt/solvers/gn.h:SolverGN::Build", "include/tinyopt/solvers/gn.h:SolverGN::Solve", "include/tinyopt/solvers/lm.h:SolverLM::Build", "include/tinyopt/solvers/lm.h:SolverLM::Hessian", "include/tinyopt/math.h:SolveLDLT"]}
{"id": "C62", "title": "With LDLT no step goes uphill, whatever the Hessian", "statement": "When the linear system is solved with LDLT, every step that the solver proposes is zero or a strict descent direction of the (clipped) gradient it was solved from, and a step is proposed only where the (damped) Hessian is positive semi-definite; an indefinite Hessian is a failure of the solver.", "quantifier": "for all user functions, including those with indefinite or singular Hessians, all runs and iterations", "why_tests_cant": "tests use least squares, where the Hessian is positive semi-definite by construction", "anchors": ["include/tinyopt/math.h:SolveLDLT", "include/tinyopt/solvers/gn.h:SolverGN::Solve", "include/tinyopt/solvers/lm.h:SolverLM::Build"]}
{"id": "C63", "title": "InvCov returns an inverse of positive definite matrices and nothing for indefinite ones", "statement": "InvCov of a positive definite matrix is its inverse (sparse matrices: also with a shift for a second attempt, which is used only if the first decomposition fails and then gives the inverse of the shifted matrix); for a matrix that is not positive semi-definite it returns nullopt.", "quantifier": "for all sizes, matrices (upper triangle or full), sparsity patterns and shifts", "why_tests_cant": "universal over matrices; the tests invert a few positive definite ones", "anchors": ["include/tinyopt/math.h:DenseInvCov", "include/tinyopt/math.h:SparseInvCov"]}
{"id": "C64", "title": "MaxStdDev is the square root of the largest variance", "statement": "MaxStdDev() is the square root of the largest diagonal coefficient of the inverse Hessian (off-diagonal coefficients are never larger); for Levenberg-Marquardt MaxStdDev(false) is that of the un-damped Hessian and MaxStdDev(true) is not larger; when there is no covariance this is reported as such.", "quantifier": "for all sizes, Hessians and damping values", "why_tests_cant": "needs the theory of positive definite matrices; MaxStdDev is never called by a test", "anchors": ["include/tinyopt/solvers/gn.h:SolverGN::MaxStdDev", "include/tinyopt/solvers/lm.h:SolverLM::MaxStdDev"]}
{"id": "C65", "title": "Logging does not change the run", "statement": "With the log enabled and any print options, Optimize ends in the same way, with the same x, Output and solver state as without log.", "quantifier": "for all problems, solver options, log options and starting states", "why_tests_cant": "equality of two runs for all inputs; tests run with one log setting", "anchors": ["include/tinyopt/optimizers/optimizer.h:Optimizer_::Step", "include/tinyopt/solvers/gn.h:SolverGN::MaxStdDev", "include/tinyopt/solvers/lm.h:SolverLM::MaxStdDev"]}
{"id": "C66", "title": "The recorded errors are the user's costs, scaled as the options say", "statement": "The i-th entry of errs is the cost the user's function returned at the point of the i-th iteration (whether it was called with derivatives or, by Levenberg-Marquardt, without): its square root unless use_squared_norm, halved if downscale_by_2, divided by the number of residuals if normalize and there are residuals.", "quantifier": "every run of the three solvers, every user function, option set and arithmetic", "why_tests_cant": "universal over runs and option combinations; tests compare a few final costs", "anchors": ["include/tinyopt/solvers/base.h:SolverBase::NormalizeCost", "include/tinyopt/solvers/gn.h:SolverGN::Accumulate", "include/tinyopt/solvers/gn.h:SolverGN::Evaluate", "include/tinyopt/optimizers/optimizer.h:Optimizer_::Step"]}
{"id": "C67", "title": "Levenberg-Marquardt converges linearly on linear least squares", "statement": "On a linear least squares problem with linearly independent columns there are constants C and rho < 1, depending on the problem and the solver options only, such that every run from every starting point ends with a cost that exceeds the minimum by at most C rho^iterations times the initial excess.", "quantifier": "for all sizes, matrices, right-hand sides, starting points, numbers of iterations and stop criteria", "why_tests_cant": "a rate for all problems and starting points; tests look at the final value of a few", "anchors": ["include/tinyopt/solvers/lm.h:SolverLM::Build", "include/tinyopt/solvers/lm.h:SolverLM::GoodStep", "include/tinyopt/optimizers/optimizer.h:Optimizer_::Step"]}
{"id": "C68", "title": "Finite parameters stay finite", "statement": "If all coordinates of x are finite when Optimize is called, then they are finite at every point where the user's function is called and in the returned x: no step, and no rolled back step, overflows.", "quantifier": "every run, user function, solver and option set; float, double and every IEEE format with 3p <= 1 - emin", "why_tests_cant": "needs steps near the overflow threshold in every iteration; tests use moderate values", "anchors": ["include/tinyopt/optimizers/optimizer.h:Optimizer_::Step", "include/tinyopt/optimizers/optimizer.h:Optimizer_::OptimizeAcc"]}
{"id": "C69", "title": "Softmax and SafeSoftmax return a probability distribution for every finite vector", "statement": "In floating point, for every vector of finite numbers, the results of Softmax and SafeSoftmax are finite numbers in [0, 1], not all zero, that sum to 1 up to rounding.", "quantifier": "all sizes, all vectors of finite numbers, all orders of summation, every IEEE format with 2p <= -emin", "why_tests_cant": "universal over vectors including huge ones; tests use small coefficients", "anchors": ["include/tinyopt/losses/classif.h:Softmax", "include/tinyopt/losses/classif.h:SafeSoftmax"]}
{"id": "C70", "title": "Gauss-Newton converges quadratically to a zero of the residuals", "statement": "Let the residuals vanish at x*, with a Jacobian that is Lipschitz and of full column rank near x*. Then Optimize with Gauss-Newton, started close enough to x*, accepts every iteration, the distance to x* after each iteration is at most a constant times its square before, and after k iterations it is of the order of q^(2^k) with q < 1.", "quantifier": "for all sizes, residuals, starting points in the ball, numbers of iterations and stop criteria; analytic and automatic derivatives", "why_tests_cant": "a rate of convergence for all problems; tests look at the final value of a few", "anchors": ["include/tinyopt/solvers/gn.h:SolverGN::Build", "include/tinyopt/solvers/gn.h:SolverGN::Solve", "include/tinyopt/optimizers/optimizer.h:Optimizer_::Step"]}
{"id": "C71", "title": "Levenberg-Marquardt and Gauss-Newton decrease nonlinear residuals at a known rate", "statement": "On nonlinear least squares whose residuals are small with respect to their curvature (L b^2 |r| < 1, L the Lipschitz constant of the Jacobian, 1/b its lower bound) every iteration of Levenberg-Marquardt, whatever its damping, and of Gauss-Newton is accepted and decreases the residuals by a fixed part of the predicted decrease. With as many equations as unknowns Gauss-Newton satisfies |r'| <= (L b^2/2) |r|^2 and Levenberg-Marquardt multiplies |r| by a factor below 1 that decreases with the damping; no solution is assumed to exist.", "quantifier": "for all sizes, residuals, starting points in the region, numbers of iterations and stop criteria", "why_tests_cant": "universal over nonlinear problems and runs; tests look at the final value of a few", "anchors": ["include/tinyopt/solvers/lm.h:SolverLM::Build", "include/tinyopt/solvers/lm.h:SolverLM::GoodStep", "include/tinyopt/solvers/gn.h:SolverGN::Solve", "include/tinyopt/optimizers/optimizer.h:Optimizer_::Step"]}
{"id": "C72", "title": "Automatic differentiation is along the update of the parameters, for every parameter type", "statement": "For every parameter type built from scalars, matrices, std::vector, std::array and std::pair for which automatic differentiation compiles, the residuals returned are those at x and the Jacobian is the derivative of the residuals of x updated by PlusEq with a step, with respect to the step, at the step zero; hence the Jacobian with respect to the coordinates wherever PlusEq adds the step to them.", "quantifier": "for all types (by induction over their structure), parameters, sizes, residual expressions and points of their domain", "why_tests_cant": "an infinite family of types; tests differentiate a few vectors and one user class", "anchors": ["include/tinyopt/diff/auto_diff.h:Eval", "include/tinyopt/diff/optimize_autodiff.h:OptimizeWithAutoDiff", "include/tinyopt/traits.h:params_trait::PlusEq", "include/tinyopt/diff/jet_traits.h:params_trait"]}
{"id": "C73", "title": "Automatic differentiation of programs with branches and loops", "statement": "For a residual function written as a program with assignments, branches and loops that compare scalars, the run on jets takes the same path as the run on numbers and returns its residuals. If the run on numbers ends, stays inside the domains of its operations and compares only different values, then the run on jets ends, the nearby runs end too, and the matrix returned is the Jacobian of the residuals.", "quantifier": "for all programs, parameters, sizes, loop lengths and states that do not depend on the parameters; jets of compile-time dimension", "why_tests_cant": "an infinite family of programs and points; tests differentiate straight-line functions", "anchors": ["include/tinyopt/3rdparty/ceres/jet.h:operator<", "include/tinyopt/diff/auto_diff.h:Eval"]}
{"id": "C74", "title": "Levenberg-Marquardt reaches small gradients from any start", "statement": "On nonlinear least squares with a Lipschitz and bounded Jacobian without small columns every iteration of Levenberg-Marquardt that does not start at a stationary point is accepted, the squared gradients of all iterates sum up to at most 2 B^2 (1 + Lambda) |r(x0)|^2 (B bounds the Jacobian, Lambda the damping), and so one of N iterates has a squared gradient of at most this over N.", "quantifier": "for all sizes, residuals, starting points and numbers of iterations", "why_tests_cant": "universal over nonlinear problems and runs; tests start near the solution", "anchors": ["include/tinyopt/solvers/lm.h:SolverLM::Build", "include/tinyopt/solvers/lm.h:SolverLM::GoodStep", "include/tinyopt/optimizers/optimizer.h:Optimizer_::Step"]}
{"id": "C75", "title": "Without stop criteria a run does all its iterations and reaches the accuracy promised for them", "statement": "If min_error, min_rerr_dec, min_step_norm2, min_grad_norm2, the callbacks and the time limit are off, a run whose iterations accept their steps does all the iterations of its budget, so that the rates of C60, C67, C70, C71 and C74 hold with the number of iterations of the budget.", "quantifier": "for all problems, solvers, options and budgets within the hypotheses of those properties", "why_tests_cant": "universal over problems and budgets; tests check a final error for one budget", "anchors": ["include/tinyopt/optimizers/optimizer.h:Optimizer_::Step", "include/tinyopt/optimizers/optimizer.h:Optimizer_::OptimizeAcc", "include/tinyopt/optimizers/options.h:Options"]}
{"id": "C76", "title": "Runs do not depend on the coordinates of the parameters", "statement": "In exact arithmetic, if the cost, the gradient and the Hessian are expressed in other coordinates x = T y of the parameters, Gauss-Newton (any invertible T) and Levenberg-Marquardt (a rescaling, T diagonal) do the same run: the same costs, acceptances and stop reason, and at every iteration x = T y and dx = T dy. Clipping, check_min_H_diag and the criteria on the norms of the step and of the gradient must be off, and systems are solved by LDLT.", "quantifier": "for all problems, changes of coordinates, starting points, numbers of iterations and other options", "why_tests_cant": "relates two runs, for all problems and units; tests run in one unit", "anchors": ["include/tinyopt/solvers/gn.h:SolverGN::Build", "include/tinyopt/solvers/gn.h:SolverGN::Solve", "include/tinyopt/solvers/lm.h:SolverLM::Build", "include/tinyopt/optimizers/optimizer.h:Optimizer_::Step"]}
{"id": "C77", "title": "Sizes known at compile time and at run time give the same run", "statement": "Optimizing the same problem with parameters whose size is known at compile time and with parameters of the same size known at run time gives the same parameters, output (costs, steps, stop reason) and iterations for Gauss-Newton, Levenberg-Marquardt and gradient descent, if memory is available.", "quantifier": "for all problems, sizes, options, solvers and arithmetics", "why_tests_cant": "relates two runs for all problems; tests compare few", "anchors": ["include/tinyopt/solvers/gn.h:SolverGN::resize", "include/tinyopt/solvers/gn.h:SolverGN::Solve", "include/tinyopt/optimizers/optimizer.h:Optimizer_::ResizeIfNeeded", "include/tinyopt/solvers/gd.h:resize"]}
{"id": "C78", "title": "Numerical differentiation at large parameters", "statement": "The note of num_diff.h says that the step may be adapted to the magnitude of x to avoid numerical instability. So in floating point arithmetic the Jacobian by numerical differentiation should be close to the derivative for parameters of any magnitude, within an error that is a fraction of it, and an optimization without derivatives should not stop at a point only because its parameters are large.", "quantifier": "for all functions, sizes, parameters, methods and binary floating-point formats; gradient descent, Gauss-Newton and Levenberg-Marquardt", "why_tests_cant": "universal over functions and magnitudes; tests differentiate at small parameters in double precision", "anchors": ["include/tinyopt/diff/num_diff.h:NumEval", "include/tinyopt/diff/num_diff.h:CreateNumDiffFunc2", "include/tinyopt/math.h:FloatEpsilon", "include/tinyopt/optimizers/optimizer.h:Optimizer_::Optimize"]}
{"id": "C79", "title": "Robust losses in Gauss-Newton and Levenberg-Marquardt decrease the robust cost", "statement": "On linear residuals under the robust losses (any mix), in exact arithmetic, Gauss-Newton and Levenberg-Marquardt fed with the exported scales accept every step from a non-stationary point, decrease the robust cost and have gradients whose squares sum up to a constant times the decrease: with the weighted normal equations J^T s J dx = -s J^T r and with the equations J^T J dx = -s J^T r given in the comment of robust_norms.h.", "quantifier": "for all losses, thresholds, numbers of residuals, linear residuals, starting points, options and numbers of iterations", "why_tests_cant": "universal over problems and runs; tests evaluate losses at single points", "anchors": ["include/tinyopt/losses/robust_norms.h:Truncated", "include/tinyopt/losses/robust_norms.h:Huber", "include/tinyopt/losses/robust_norms.h:Tukey", "include/tinyopt/losses/robust_norms.h:GemanMcClure", "docs/API.md:396-411", "include/tinyopt/solvers/gn.h:SolverGN::Build", "include/tinyopt/solvers/lm.h:SolverLM::Build", "include/tinyopt/optimizers/optimizer.h:Optimizer_::Step"]}
{"id": "C80", "title": "The time limit against real time", "statement": "max_duration_ms bounds the duration of a run: with a limit L > 0 a run that reports kTimedOut took longer than L, and no further iteration starts once the time since the start of the run is above L. The duration reported is the time the run took.", "quantifier": "for all problems, solvers, options, numbers of iterations and clocks that do not go back", "why_tests_cant": "universal over timings; tests cannot control the clock", "anchors": ["include/tinyopt/time.h:toc_ms", "include/tinyopt/optimizers/optimizer.h:Optimizer_::OptimizeAcc", "include/tinyopt/optimizers/options.h:max_duration_ms"]}
{"id": "C81", "title": "The square root example of the README", "statement": "Minimising the residual x*x - a with the default solver (Levenberg-Marquardt) and automatic differentiation finds the square root of a: from every start x0 >= sqrt(a)/2 every step is accepted, the distance to sqrt(a) shrinks at least by the factor 3/5 per iteration and quadratically up to the damping, the run ends for one of four reasons and each of them implies a bound on the final distance. With a = 2, x0 = 1 and the default options the result is within 3e-7 of sqrt(2).", "quantifier": "for all a > 0, starting points from sqrt(a)/2 on, options in the stated ranges and numbers of iterations", "why_tests_cant": "universal over a and the start; the test sqrt2 of the repository runs one pair", "anchors": ["README.md:74-97", "include/tinyopt/diff/optimize_autodiff.h:103-116", "include/tinyopt/solvers/lm.h:SolverLM::Build", "include/tinyopt/optimizers/optimizer.h:Optimizer_::OptimizeAcc", "include/tinyopt/optimizers/optimizer.h:Optimizer_::Step"]}
{"id": "C82", "title": "The formatter of C++17 builds", "statement": "tinyopt::format2 replaces the placeholders {...} of a format string by the arguments in order and copies the rest; it throws std::out_of_range with too few arguments, std::invalid_argument with too many and for a string whose braces are not paired; it never reads outside of the string. None of the log statements of the library throws.", "quantifier": "for all format strings and arguments; all log statements", "why_tests_cant": "universal over strings; the repository has no test of it", "anchors": ["include/tinyopt/log.h:39-67", "include/tinyopt/cost.h:toString", "include/tinyopt/optimizers/optimizer.h:Optimizer_::Step"]}
{"id": "C83", "title": "A run that reports convergence was at a nearly stationary point", "statement": "When a run stops with kMinDeltaNorm or kMinGradNorm, the values it returns are those of an iterate where the step the solver computed, or the gradient the user's function returned, is below the configured bound, plus that step; with exact arithmetic and a positive definite Hessian, the squared norm of the gradient of the user's function there is at most the squared Frobenius norm of the (damped) Hessian times min_step_norm2.", "quantifier": "for all user functions, starts, options, linear solvers; gradient descent, Gauss-Newton and Levenberg-Marquardt", "why_tests_cant": "universal over functions and runs; tests look at the stop reason and the result of a few problems", "anchors": ["include/tinyopt/optimizers/optimizer.h:Optimizer_::Step", "include/tinyopt/solvers/gn.h:SolverGN::Solve", "include/tinyopt/solvers/lm.h:SolverLM::Build", "include/tinyopt/optimizers/optimizer.h:519-534"]}
{"id": "C84", "title": "A run started at a stationary point stops at once, there", "statement": "If the gradient the user's function returns at the start is zero (and, for Gauss-Newton and Levenberg-Marquardt, the matrix it returns is positive definite, damped for the latter) and min_step_norm2 is positive, the run does exactly one iteration, returns the start unchanged, reports the cost of the start and stops with a success: kMinError, kMinRelError or kMinDeltaNorm.", "quantifier": "for all such functions, options without time limit, exact linear solvers; in real arithmetic", "why_tests_cant": "universal over functions and starts; a test starts at one optimum", "anchors": ["include/tinyopt/optimizers/optimizer.h:Optimizer_::Step", "include/tinyopt/optimizers/optimizer.h:Optimizer_::OptimizeAcc", "include/tinyopt/solvers/gn.h:SolverGN::Solve", "include/tinyopt/solvers/lm.h:SolverLM::Build"]}
{"id": "C85", "title": "The order of the parameters does not matter", "statement": "Numbering the parameters in another order (and permuting start, derivatives and the arguments of the callback accordingly) gives the same run: the same outcome, costs, norms, decisions, counters and stop reason, with the parameters and the steps of every iteration in the new order.", "quantifier": "for all permutations, user functions, starts, options; gradient descent, Gauss-Newton (with LDLT or the inverse, full or upper triangular Hessians) and Levenberg-Marquardt; in real arithmetic", "why_tests_cant": "universal over problems and permutations; no test permutes parameters", "anchors": ["include/tinyopt/optimizers/optimizer.h:Optimizer_::OptimizeAcc", "include/tinyopt/optimizers/optimizer.h:Optimizer_::Step", "include/tinyopt/solvers/gn.h:SolverGN::Build", "include/tinyopt/solvers/gn.h:SolverGN::Solve", "include/tinyopt/solvers/lm.h:SolverLM::Build"]}
{"id": "C86", "title": "The unit of the residuals does not matter if the thresholds are adapted", "statement": "If all residuals and derivatives are multiplied with a number c, and the thresholds that are compared with costs, gradients and Hessians (min_error, min_grad_norm2, grad_clipping, check_min_H_diag, the learning rate) are multiplied with the corresponding power of c, the run is the same: the same parameters, steps, decisions, counters and stop reason, with costs multiplied with c^2 (or |c| without use_squared_norm).", "quantifier": "for all residuals, factors, starts, options; gradient descent, Gauss-Newton and Levenberg-Marquardt; in real arithmetic", "why_tests_cant": "universal over problems and factors; no test scales a problem", "anchors": ["include/tinyopt/optimizers/optimizer.h:Optimizer_::OptimizeAcc", "include/tinyopt/optimizers/optimizer.h:Optimizer_::Step", "include/tinyopt/solvers/gn.h:SolverGN::Solve", "include/tinyopt/solvers/lm.h:SolverLM::Build", "include/tinyopt/optimizers/optimizer.h:431-433"]}
{"id": "C87", "title": "Rotations and poses as parameters", "statement": "With the parameter traits for Sophus and lie++ (x is multiplied on the right with the exponential of the step) a run that starts at a rotation or pose evaluates and returns rotations or poses only; a rolled back step is undone exactly, so that the returned parameters are those of the best cost or one step from there; a change of the world frame moves the whole run and changes nothing else; a run on unit quaternions is the run on their rotation matrices; and every rotation can be reached from every other one by one step of length at most pi.", "quantifier": "for all solvers, options, user functions, starts; rotation matrices, unit quaternions, poses with any number of translations in either order of the coefficients; in real arithmetic (the statement about frames in any arithmetic)", "why_tests_cant": "the tests optimise one random pose with each library", "anchors": ["include/tinyopt/3rdparty/traits/sophus.h:params_trait<Sophus::SE3<T>>::PlusEq", "include/tinyopt/3rdparty/traits/sophus.h:params_trait<Sophus::SO3<T>>::PlusEq", "include/tinyopt/3rdparty/traits/lieplusplus.h:params_trait::PlusEq", "include/tinyopt/optimizers/optimizer.h:Optimizer_::OptimizeAcc"]}
{"id": "C88", "title": "One Gauss-Newton step finds a prior on rotations and poses", "statement": "With the logarithm of prior^-1 x as residuals (tests/sophus.cpp, tests/lieplusplus.cpp) a Gauss-Newton run that starts anywhere in the domain of the logarithm ends normally at the prior, and all iterations but the first start there, although the problem is not linear.", "quantifier": "for all parameter types whose movements along one direction add up (rotations, quaternions, poses, vectors), priors, starts in the domain, options and stop criteria; Jacobians that are the derivative or only map the logarithm to itself (such as the right Jacobian used in the test); in real arithmetic", "why_tests_cant": "the tests start at one random pose", "anchors": ["tests/sophus.cpp:26-45", "tests/lieplusplus.cpp:22-62", "include/tinyopt/solvers/gn.h:SolverGN::Solve", "include/tinyopt/optimizers/optimizer.h:Optimizer_::OptimizeAcc"]}
{"id": "C89", "title": "The covariance returned with the result is the covariance of the estimate", "statement": "On linear least squares (residuals A x - b, full column rank) Covariance() of the returned Output is the inverse of A^T A, or of A^T S^-1 A if the residuals are whitened by a covariance S; for a prior (tests/cov.cpp) it is the covariance of the prior, and the run ends at the prior. If the observations b are those of true parameters with noise of mean zero and unit covariance (or covariance S, whitened by S), the returned parameters are the true ones on average, and the returned matrix is their covariance.", "quantifier": "for all A, b, S, sizes, starts, options, iteration limits, damping factors and noise distributions with finite second moments; Gauss-Newton, and Levenberg-Marquardt for the matrix; in real arithmetic", "why_tests_cant": "the tests compare the covariance of a prior on two parameters with the expected one", "anchors": ["tests/cov.cpp:22-160", "include/tinyopt/optimizers/optimizer.h:Optimizer_::OptimizeAcc", "include/tinyopt/solvers/lm.h:SolverLM::Hessian", "include/tinyopt/output.h:80-93", "include/tinyopt/math.h:41-57"]}
{"id": "C90", "title": "After a rejected step the run recovers", "statement": "At a point that is not stationary, a run that goes on after a rejected step finds an accepted one after a bounded number of further tries. In particular Gauss-Newton and gradient descent do not spend the rest of the iterations between the same two points.", "quantifier": "for all problems with deterministic residuals, all options, starts, limits of at most 65536 iterations and solver states; for Levenberg-Marquardt residuals with a Lipschitz Jacobian without small columns, in real arithmetic", "why_tests_cant": "the tests start runs close to the solution, where no step is rejected", "anchors": ["include/tinyopt/optimizers/optimizer.h:Optimizer_::OptimizeAcc", "include/tinyopt/optimizers/optimizer.h:Optimizer_::Step", "include/tinyopt/solvers/lm.h:SolverLM::BadStep", "include/tinyopt/solvers/lm.h:SolverLM::Build", "include/tinyopt/solvers/gn.h:SolverGN::Solve", "include/tinyopt/solvers/gd.h:SolverGD::Solve"]}
{"id": "C91", "title": "Jets of the Bessel functions carry the value and the derivative", "statement": "BesselJ0, BesselJ1, BesselJn and cyl_bessel_j of a jet return the Bessel function of the first kind of the scalar part, and its derivative times the infinitesimal part, wherever the function is defined and differentiable.", "quantifier": "all orders, all arguments, all infinitesimal parts, every dimension", "why_tests_cant": "no test evaluates them; the formulas are infinite series", "anchors": ["include/tinyopt/3rdparty/ceres/jet.h:BesselJ0", "include/tinyopt/3rdparty/ceres/jet.h:BesselJn", "include/tinyopt/3rdparty/ceres/jet.h:cyl_bessel_j"]}
{"id": "C92", "title": "Rounding errors do not spoil the convergence to a square root", "statement": "Gauss-Newton on the square root example (residual x*x - a), computed in an IEEE format with at least 10 bits, with the number a and its square away from overflow and underflow and the LDLT of a matrix of size 1 being a division, from any start between half and twice the root: every run ends normally, all its points are finite numbers, the relative error after i iterations is at most max(0.26^(2^(i-1)), (16 + 3 N) u), u half a unit in the last place of 1, and N the largest possible number of consecutive rejected steps; without stop criteria this holds for the number of iterations asked for. With the numbers of the test (float, 2, 20 iterations, no limit of failures) the result is within 1e-5 of the root for all starts between 0.71 and 2.82. In general, steps that bring an error down up to a limit, in any arithmetic, make a run that does so, whatever steps are rejected below the limit.", "quantifier": "all formats, all numbers a within the limits, all starts between half and twice the root, all iterations, all options of the optimizer", "why_tests_cant": "the test runs five starts and one number; whether the last steps are rejected, and what an inexact rollback leaves, depends on every rounding", "anchors": ["tests/sqrt2.cpp:31-48", "include/tinyopt/optimizers/optimizer.h:Optimizer_::Optimize", "include/tinyopt/optimizers/optimizer.h:Optimizer_::Step", "include/tinyopt/solvers/gn.h:SolverGN::Solve"]}
{"id": "C93", "title": "Looser stop criteria only continue the same run", "statement": "If the options of two runs differ in stop criteria only (minimal error, relative decrease, step norm, gradient norm, time limit, limit for the total number of failures, number of iterations, check_final_cost, save_last_H) and the second set is at least as loose, then the first run is an initial part of the second: it evaluates at the same points, takes the same decisions and records the same costs, steps and counters; the point it returns is one the second run passes through (unless it was stopped by the limit for the total number of failures); and the second run never ends with a worse final cost. Whenever the second run returns, so does the first.", "quantifier": "all problems, solvers, callbacks, clocks, starting points and pairs of options with budgets of at most 65536 iterations", "why_tests_cant": "a relation between two runs for every pair of option sets; tests use one option set per run", "anchors": ["include/tinyopt/optimizers/optimizer.h:Optimizer_::Step", "include/tinyopt/optimizers/optimizer.h:Optimizer_::OptimizeAcc", "include/tinyopt/optimizers/options.h:86-106"]}
{"id": "C94", "title": "Gross outliers do not influence the result", "statement": "A run depends on the user's function only through its values at the points the run evaluates. So under truncated and Tukey losses it does not matter how far outliers are away: two sets of measurements that differ only in measurements beyond the threshold at the points of the run (in both sets) give the same run. With linear measurements under truncated losses, if the start and the least squares solution of the inliers alone classify the measurements in the same way, Gauss-Newton returns exactly that solution, and the true parameters if the inliers are free of noise.", "quantifier": "all problems (locality); all numbers and values of measurements, thresholds, outliers, starting points, options and stop criteria; real arithmetic", "why_tests_cant": "quantifies over unboundedly large outliers in any number and is a relation between two runs; tests use one data set", "anchors": ["include/tinyopt/losses/robust_norms.h:14-60", "include/tinyopt/optimizers/optimizer.h:Optimizer_::OptimizeAcc", "include/tinyopt/solvers/gn.h:SolverGN::Build"]}
{"id": "C95", "title": "More damping gives shorter steps, and a rejected step is followed by a shorter one", "statement": "The Levenberg-Marquardt step minimises the quadratic model of the cost among all steps that are not longer (measured with the diagonal of the Hessian); with more damping it is strictly shorter and predicts less decrease. After a rejected step the next one from the same point has more damping and is shorter.", "quantifier": "all Hessians and gradients, all damping values; all runs of Levenberg-Marquardt, all user functions, starting points, numbers of iterations up to 65536; real arithmetic", "why_tests_cant": "quantifies over all problems and all positions in a run at which a step is rejected; the tests only look at final results, which are right although the second try is worse", "anchors": ["include/tinyopt/solvers/lm.h:SolverLM::GoodStep", "include/tinyopt/solvers/lm.h:SolverLM::BadStep", "include/tinyopt/optimizers/optimizer.h:Optimizer_::Step", "include/tinyopt/optimizers/options.h:133-139"]}
{"id": "C96", "title": "Fitting a circle", "statement": "For points that are not on one line the circle fit of the documentation has one best circle; every local minimum of its cost is this circle, and a point with a small gradient is near it. The run of Gauss-Newton reaches the exact centre in one step and converges to the radius.", "quantifier": "all sets of points not on one line, all starting centres and radii, all numbers of iterations, all real arithmetic linear algebra that is exact; automatic differentiation", "why_tests_cant": "quantifies over all point sets and all starts, says that no other local minimum exists anywhere in the plane; the test fits one circle from one start", "anchors": ["docs/API.md:86-112", "tests/circle.cpp:33-67", "include/tinyopt/optimizers/optimizer.h:Optimizer_::OptimizeAcc", "include/tinyopt/solvers/gn.h:SolverGN::Solve"]}
{"id": "C97", "title": "The softmax of a scalar", "statement": "Softmax and SafeSoftmax of a scalar agree with those of a vector with one entry: the value is 1, the exported derivative is the derivative of the value (0), and a pair is returned exactly if a Jacobian is asked for.", "quantifier": "all scalars, all second arguments (none, a matrix of any width, a number or true), all inner functions and their Jacobians", "why_tests_cant": "quantifies over all inner functions; the tests only call the functions on vectors", "anchors": ["include/tinyopt/losses/classif.h:20-26", "include/tinyopt/losses/classif.h:57-63"]}
{"id": "C98", "title": "Runs see the residuals only through their inner products", "statement": "Residuals whose inner products at all pairs of points agree give the same run: the order and the signs of the residuals, orthogonal mixing and the choice of the square root of the information matrix do not matter.", "quantifier": "all residual functions, all permutations and orthogonal matrices, all pairs of square roots; Gauss-Newton and Levenberg-Marquardt, automatic and numerical differentiation (all methods and steps), all options, linear algebra, starts and states; exact arithmetic", "why_tests_cant": "relates two runs for all residual functions and all mixings; tests run one formulation of a problem", "anchors": ["include/tinyopt/diff/optimize_autodiff.h:117-161", "include/tinyopt/diff/num_diff.h:279-308", "include/tinyopt/losses/mahalanobis.h", "include/tinyopt/optimizers/optimizer.h:Optimizer_::OptimizeAcc"]}
{"id": "C99", "title": "With a prior on every parameter no run fails", "statement": "If the residuals of the user are followed by weighted differences to a mean for every parameter, every system can be solved: no run fails, whatever the other residuals, unless it visits a point where they are not defined or the cost is the largest number. No Gauss-Newton step, in the weights of the prior, is longer than the distance to the mean plus half of the norm of the residuals. Affine residuals of any rank are solved by the first step.", "quantifier": "all residual programs, means and nonzero weights, all options without gradient clipping whose diagonal test passes the prior, all starts, clocks and callbacks; Gauss-Newton and Levenberg-Marquardt (also without damping); exact arithmetic", "why_tests_cant": "quantifies over all residual functions, including rank deficient ones at every point; tests use a few well-posed problems with priors", "anchors": ["tests/cov.cpp:23-44", "tests/basic.cpp:57-80", "include/tinyopt/solvers/gn.h:SolverGN::Build", "include/tinyopt/solvers/gn.h:SolverGN::Solve", "include/tinyopt/solvers/lm.h:SolverLM::Build", "include/tinyopt/optimizers/optimizer.h:Optimizer_::OptimizeAcc"]}
{"id": "C100", "title": "Powers of residuals slow Gauss-Newton down to a constant rate", "statement": "The library squares what the user returns. If the user returns the p-th powers of residuals (squares, as in the Wood test), in as many residuals as parameters, the Gauss-Newton step is the p-th part of the step for the residuals; on affine residuals every iteration is accepted and multiplies the error by 1 - 1/p, so the solution that the residuals themselves give in one iteration is never reached.", "quantifier": "all residual functions with invertible Jacobian for the step; all invertible affine systems, exponents p >= 2, starts with nonzero residuals, options without clipping, numbers of iterations; exact arithmetic", "why_tests_cant": "an exact rate over all systems and iterations; tests check the distance to the solution at the end of a run", "anchors": ["tests/optimize_hard.cpp:115-127", "include/tinyopt/diff/optimize_autodiff.h:117-161", "include/tinyopt/solvers/gn.h:SolverGN::Solve", "include/tinyopt/optimizers/optimizer.h:Optimizer_::OptimizeAcc"]}
{"id": "C101", "title": "The numeric limits of jets are those of their scalars", "statement": "std::numeric_limits of jets, and of jets of jets, satisfies the clauses of the C++ standard whenever that of the scalar type does, and its constants have no derivatives.", "quantifier": "all scalar types with limits that satisfy the standard, all numbers of derivatives, all depths of nesting", "why_tests_cant": "quantifies over scalar types and nestings; no test reads the limits", "anchors": ["include/tinyopt/3rdparty/ceres/jet.h:1416-1482"]}
{"id": "C102", "title": "The largest standard deviation with sparse Hessians", "statement": "MaxStdDev of the Gauss-Newton and Levenberg-Marquardt solvers with sparse Hessians is the square root of the largest variance, i.e. of the largest entry of the inverse of the Hessian, the same as with the dense Hessian; from the damped Hessian it is never larger than from the un-damped one.", "quantifier": "all positive definite sparse Hessians of all dimensions, all dampings, all factorisations that solve the positive definite systems", "why_tests_cant": "quantifies over Hessians and over factorisations; no test computes a standard deviation from a sparse Hessian", "anchors": ["include/tinyopt/solvers/gn.h:SolverGN::MaxStdDev", "include/tinyopt/solvers/lm.h:SolverLM::MaxStdDev", "include/tinyopt/math.h:114-137"]}
{"id": "C103", "title": "Rank-deficient linear least squares", "statement": "On linear least squares problems of any rank, i.e. also when the Hessian is singular, Gauss-Newton with LDLT ends at a global minimiser of the sum of squared residuals after one step and stays there, and Levenberg-Marquardt converges linearly, to the minimiser nearest to its start.", "quantifier": "all matrices and right hand sides (for Levenberg-Marquardt: without zero columns), all starts, all options and numbers of iterations, all solvers of consistent positive semidefinite systems", "why_tests_cant": "quantifies over problems of all sizes and ranks, over starts and run lengths", "anchors": ["include/tinyopt/optimizers/optimizer.h:Optimizer_::OptimizeAcc", "include/tinyopt/solvers/gn.h:SolverGN::Solve", "include/tinyopt/solvers/lm.h:SolverLM::Build", "include/tinyopt/math.h:232-240"]}
{"id": "C104", "title": "The LDLT decomposition of SolveLDLT", "statement": "SolveLDLT returns the solution of A x = b when A is symmetric positive definite and nothing otherwise, and InvCov of a symmetric semi-definite matrix is its inverse or nothing; a singular positive semidefinite system is solved when it is consistent.", "quantifier": "all sizes, all symmetric matrices, all right hand sides (exact arithmetic)", "why_tests_cant": "quantifies over all matrices of all sizes", "anchors": ["include/tinyopt/math.h:232-240", "include/tinyopt/math.h:41-57", "include/tinyopt/solvers/gn.h:SolverGN::Solve"]}
{"id": "C105", "title": "Parameters without effect", "statement": "Adding parameters that no residual depends on changes nothing: they keep their values, the other parameters go through the same values, and the output is the same up to the rows and columns of zeros of the Hessian.", "quantifier": "all problems, all ways to number the added parameters among the others, all start values, all runs (exact arithmetic)", "why_tests_cant": "quantifies over all problems and all runs", "anchors": ["include/tinyopt/optimizers/optimizer.h:Optimizer_::OptimizeAcc", "include/tinyopt/solvers/gn.h:SolverGN::Solve", "include/tinyopt/solvers/lm.h:SolverLM::Build", "include/tinyopt/math.h:232-240"]}
{"id": "C106", "title": "Jets of jets carry the higher derivatives", "statement": "Evaluating an expression on jets whose scalars are jets, nested k times, gives in its coefficients all partial derivatives of the expression up to order k; mixed ones do not depend on the order. With two levels the coefficients are the value, the gradient and the symmetric Hessian.", "quantifier": "all expressions in the operators and the listed functions, all points inside the domains of the functions, all depths", "why_tests_cant": "quantifies over all expressions and depths; tests compare a few second derivatives", "anchors": ["include/tinyopt/3rdparty/ceres/jet.h:392-409", "include/tinyopt/3rdparty/ceres/internal/jet_traits.h:105-117"]}
{"id": "C107", "title": "Exact Hessians", "statement": "If the user's function returns the gradient and the Hessian of the cost (for instance taken from jets of jets), then around every point where the gradient vanishes and the Hessian is positive definite there is a ball from which Gauss-Newton converges quadratically to that point, every iteration being accepted and lowering the cost; Levenberg-Marquardt converges linearly, at a rate set by the largest damping.", "quantifier": "all expressions, all nondegenerate minima, all options and stop criteria, all starts in the ball (exact arithmetic)", "why_tests_cant": "quantifies over all expressions, all starts and all options", "anchors": ["include/tinyopt/optimizers/optimizer.h:Optimizer_::OptimizeAcc", "include/tinyopt/solvers/gn.h:SolverGN::Solve", "include/tinyopt/solvers/lm.h:SolverLM::Build", "include/tinyopt/3rdparty/ceres/jet.h:392-409"]}
{"id": "C108", "title": "The computations with types behind the jets", "statement": "ExclusiveScan, RemoveValue and IsEmptyOrAreAllEqual compute what their comments say for every integer sequence; CompatibleJetOperands and PromotableJetOperands hold exactly when at least one operand is a jet, the jets have the same number of derivatives and (the former) the underlying scalar types agree; compatible operands have a common type and fmax, fmin compile for them.", "quantifier": "all integer sequences, all lists of types (numbers, jets, jets of jets of any depth and any dimensions)", "why_tests_cant": "quantifies over template arguments; the tests instantiate a handful of types", "anchors": ["include/tinyopt/3rdparty/ceres/internal/integer_sequence_algorithm.h:69-195", "include/tinyopt/3rdparty/ceres/internal/jet_traits.h:45-191", "include/tinyopt/3rdparty/ceres/jet.h:199-212"]}
{"id": "C109", "title": "fmax, fmin and fdim of jets with NaN and overflow", "statement": "fmax and fmin of jets over floating-point numbers treat NaN as missing data, select the larger (smaller) argument with its derivatives, give the common value with the mean of the derivatives when the values are equal, and do not depend on the order of the arguments; fdim is NaN if an argument is, zero without derivatives if the first is not larger, and else the positive difference.", "quantifier": "all floating-point formats, all numbers of derivatives, all jets, finite or not, C++17 and C++20 builds", "why_tests_cant": "quantifies over all pairs of jets of all formats, including NaN and overflow", "anchors": ["include/tinyopt/3rdparty/ceres/jet.h:798-884", "include/tinyopt/3rdparty/ceres/jet.h:1031-1124", "include/tinyopt/3rdparty/ceres/jet.h:1205-1215"]}
{"id": "C110", "title": "The sparse LDLT decomposition", "statement": "The sparse SolveLDLT returns the solution of the system whenever the matrix is positive definite, whatever the order of elimination; any answer it gives is the only solution; and it gives none, as documented, if the matrix is not positive definite.", "quantifier": "all sparse symmetric matrices of all sizes, all orders of elimination, all right-hand sides, all shifts, exact arithmetic", "why_tests_cant": "quantifies over all matrices, sizes and permutations", "anchors": ["include/tinyopt/math.h:266-277", "include/tinyopt/math.h:114-137"]}
{"id": "C111", "title": "Only the order of the costs matters", "statement": "Two problems with the same gradients and Hessians whose costs compare in the same way at any two points give the same run (points, steps, decisions, counters, stop reason), if the options do not look at the size of the costs. So residuals that do not depend on the parameters do not matter, and neither does the scaling of the costs (squared or not, halved, normalised).", "quantifier": "all problems, all linear solvers, all options without thresholds on the cost, all starts, the three solvers, any number of parameters, residuals and constant residuals, exact arithmetic", "why_tests_cant": "quantifies over all pairs of problems and all runs", "anchors": ["include/tinyopt/optimizers/optimizer.h:Optimizer_::Step", "include/tinyopt/solvers/gn.h:SolverGN::Solve", "include/tinyopt/solvers/lm.h:SolverLM::Build", "include/tinyopt/solvers/base.h:40-46"]}
{"id": "C112", "title": "Rates of Gradient Descent on convex costs", "statement": "On a smooth cost, with a learning rate below 2/K (K the Lipschitz constant of the gradient) and no clipping, every iteration of Gradient Descent multiplies the distance of a strongly convex cost (or of one whose gradient dominates the excess) to its minimum by at most 1 - 2 mu lr (1 - K lr/2), and on convex costs with lr <= 1/K the excess after N iterations is at most |x0 - xs|^2 / (2 lr N) and no iteration moves away from a minimiser. When a run stops because the gradient or the step is short the cost is within a known distance of its minimum. With a too large learning rate the run cannot recover: if the first step does not decrease the cost, the run only changes between two points.", "quantifier": "all smooth costs with the user's gradient, all numbers of parameters, all options and stop criteria, all starts, exact arithmetic", "why_tests_cant": "quantifies over all costs, starts and lengths of runs", "anchors": ["include/tinyopt/optimizers/optimizer.h:Optimizer_::Step", "include/tinyopt/optimizers/optimizer.h:Optimizer_::OptimizeAcc", "include/tinyopt/solvers/gd.h:SolverGD::Solve"]}
{"id": "C113", "title": "Levenberg-Marquardt survives rounding errors", "statement": "In floating point arithmetic without overflow and underflow (every operation has a relative error of at most u), the LDLT decomposition of a symmetric matrix that is at least mu times its diagonal, with mu >= 4 (n+1) ((1+u)^(2n+4) - 1), succeeds; its result solves the system up to a backward error of a few roundings relative to the diagonal, is close to the solution, and is a descent direction for the right hand side -g. A Hessian J^T J as computed is positive semidefinite up to n ((1+u)^(m+1) - 1) times its diagonal. So a run of Levenberg-Marquardt whose damping exceeds these errors never fails and takes only descent directions, even on singular problems: in double, with the default lower end 1e-9 of the damping, up to 100 parameters, 10000 residuals and 65536 iterations.", "quantifier": "all rounding functions with relative error u, all matrices, right hand sides, user functions, options, starts and run lengths", "why_tests_cant": "quantifies over all matrices and all ways of rounding; rounding errors that make a decomposition fail are rare", "anchors": ["include/tinyopt/math.h:232-240", "include/tinyopt/diff/num_diff.h:283-309", "include/tinyopt/solvers/gn.h:SolverGN::Solve", "include/tinyopt/solvers/lm.h:SolverLM::Build", "include/tinyopt/solvers/lm.h:SolverLM::BadStep", "include/tinyopt/optimizers/optimizer.h:Optimizer_::OptimizeAcc"]}
{"id": "C114", "title": "The default options", "statement": "With the default options in double precision every run of Gauss-Newton, Levenberg-Marquardt and Gradient Descent, on any function, state and starting point, returns after 1 to 51 iterations and at most 255 calls of the user's function, reports a stop reason and the number of its iterations, and counts its failures without wrapping around; the damping of Levenberg-Marquardt ends in the range 1e-9f to 1e9f. Gradient Descent with the default learning rate keeps at least the fraction (1 - K/999)^51 of the distance to any critical point of a cost with K-Lipschitz gradient. Not guaranteed: the last step is not checked, so that a point much worse than the start can be returned; a function of parameters and gradient only, as in an example of the documentation, is refused.", "quantifier": "all user functions, linear solvers, solver states, parameter types and starting points; for Gradient Descent all smooth costs", "why_tests_cant": "quantifies over all user functions; the numbers follow from the combination of several defaults", "anchors": ["include/tinyopt/optimizers/options.h:24-156", "include/tinyopt/optimize.h:16-77", "include/tinyopt/optimizers/optimizer.h:Optimizer_::OptimizeAcc", "include/tinyopt/optimizers/optimizer.h:Optimizer_::Step", "include/tinyopt/solvers/lm.h:SolverLM::GoodStep", "docs/API.md:207-221"]}
{"id": "C115", "title": "The Cholesky factor behind MahaWhitened", "statement": "Eigen's Cholesky decomposition, as MahaWhitened uses it, succeeds on a symmetric matrix exactly if the matrix is positive definite, and then its factor L is lower triangular with positive diagonal and L Lt equals the matrix; forward substitution solves the triangular system; so that what C46 and C89 assume of Eigen's decompositions holds, and the whitened residual has squared norm rt S^-1 r, S being read from the upper triangle of the covariance. With a relative rounding error of every operation the decomposition of a matrix that is at least mu times its diagonal still succeeds if 32 n ((1+u)^(n+5)-1) <= mu, and the norm of the whitened residual has a relative error of at most 4 n ((1+u)^(n+5)-1)/mu. Not guaranteed: a covariance that is not positive definite is not refused, the residual is then multiplied by the inverse of a triangular matrix that is not a factor of the covariance, or divided by zero.", "quantifier": "all dimensions, all covariances, all residuals and Jacobians; all rounding functions with relative error u <= 1/2", "why_tests_cant": "quantifies over all covariances, positive definite or not, and all rounding functions; the error bound is in terms of the condition of the covariance", "anchors": ["include/tinyopt/losses/mahalanobis.h:139-153"]}
{"id": "C116", "title": "What the damping can and cannot repair", "statement": "Levenberg-Marquardt finds a step at every point that is not stationary: where the (dense) Hessian given by the user is not positive definite, the damping grows until the system can be solved. The damping multiplies the diagonal, so it can make a symmetric matrix positive definite exactly if all diagonal entries are positive.", "quantifier": "all symmetric matrices; all user functions, Hessians, damping options, limits and solver states with LDLT (exact arithmetic)", "why_tests_cant": "quantifies over all Hessians, points and damping options; the tests start where the Hessian is positive definite", "anchors": ["include/tinyopt/solvers/lm.h:SolverLM::Build", "include/tinyopt/solvers/lm.h:SolverLM::FailedStep", "include/tinyopt/optimizers/optimizer.h:Optimizer_::Step", "include/tinyopt/math.h:232-240", "tests/optimize_easy.cpp:35-78"]}
{"id": "C117", "title": "Gradient Descent ends as converged, or where it started", "statement": "On a region where the steps of Gradient Descent lower the cost and bring an error measure down by a factor, every run with a limit on the length of the step accepts all steps, ends as converged (Output::Converged) within a number of iterations given by the factor, and the criterion it reports holds at the point of the last iteration; no Lipschitz constant on the whole space is needed. If the first step does not lower the cost the run ends exactly where it started, after max_consec_failures + 1 iterations, as not converged. The Gradient Descent test of the repository passes from all starting points at most 6.8 from the minimum, and from none that is at least 7 (and at most 10^6) away.", "quantifier": "all costs, regions, starting points, options without callbacks and time limit, sizes; the test with its options (float literals as the nearest binary32 numbers) from all starting points (exact arithmetic)", "why_tests_cant": "the test runs from the single starting point 40.1", "anchors": ["include/tinyopt/solvers/gd.h:107-134", "include/tinyopt/optimizers/optimizer.h:Optimizer_::Step", "include/tinyopt/optimizers/optimizer.h:Optimizer_::OptimizeAcc", "tests/unconstrained.cpp:19-42", "include/tinyopt/output.h:30-35"]}
{"id": "C118", "title": "Levenberg-Marquardt and Gauss-Newton end as converged", "statement": "On a region where damped Gauss-Newton steps lower the norm of the residuals and contract an error measure, every run of Levenberg-Marquardt (starting damping at most that of the region) or Gauss-Newton accepts all its steps, ends as converged (Output::Converged) within a number of iterations given by the factor, and the criterion it reports holds at the point of the last iteration. Linear residuals with linearly independent columns (the whole space) and regular nonlinear equations (small residuals) are such regions. With the default options Levenberg-Marquardt converges within its 51 iterations on every linear model with diag(H) <= 1000 H. The tests tinyopt_simple and tinyopt_sparse pass from all starting points up to 10^150 away: converged, at most 42 iterations, result within 1e-9 of the minimum (the tests ask for 1e-5).", "quantifier": "all residuals, regions, starting points, options without callbacks and time limit, sizes; the tests with the default options (float literals as the nearest binary32 numbers) from all starting points (exact arithmetic)", "why_tests_cant": "the tests run from one starting point each (1.4, one random vector)", "anchors": ["include/tinyopt/solvers/lm.h:SolverLM::Build", "include/tinyopt/solvers/gn.h:SolverGN::Solve", "include/tinyopt/optimizers/optimizer.h:Optimizer_::Step", "include/tinyopt/optimizers/optimizer.h:Optimizer_::OptimizeAcc", "tests/simple.cpp:20-37", "tests/sparse.cpp:20-63", "include/tinyopt/output.h:30-35"]}
{"id": "C119", "title": "tests/simple.cpp in IEEE double arithmetic, for all starting points", "statement": "TestSimpleLM with every operation rounded to double (residual, damping, LDLT, step, update, criteria; float literals as the nearest binary32 numbers): from every double up to 1e150 away from the minimum z (any double with |z| <= 1e6; 2 in the test) Levenberg-Marquardt with the default options ends as succeeded and converged after at most 41 iterations, all accepted, and the result is within 1e-9 of z (the test asks for 1e-5); the run ends because of the error or the length of the step. If |z| <= 100 and the start is between 2e-7 and 9e4 away, it takes 2 to 4 iterations and ends because of the length of the step, as the first case of tests/basic.cpp requires for its start. From doubles 3e154 or more away (up to 1e306) the square of the step overflows, and the run stops at once with kSystemHasNaNOrInf without moving, although the cost, the gradient and the step are finite.", "quantifier": "all starting doubles, all minima with |z| <= 1e6, both values of check_final_cost, any values of fresh gradient and Hessian memory", "why_tests_cant": "the test starts from 1.4 only; there are 2^64 doubles", "anchors": ["tests/simple.cpp:20-37", "include/tinyopt/solvers/lm.h:SolverLM::Build", "include/tinyopt/solvers/lm.h:SolverLM::GoodStep", "include/tinyopt/solvers/gn.h:SolverGN::Solve", "include/tinyopt/optimizers/optimizer.h:Optimizer_::Step", "include/tinyopt/math.h:232-240"]}
{"id": "C120", "title": "Gauss-Newton in IEEE double arithmetic finds z in x - z to the last bit", "statement": "Gauss-Newton with the default options on the residual x - z (tests/basic.cpp), every operation rounded to double: from every double up to 1e150 away from z (1e-5 <= |z| <= 1e150) the run ends as succeeded and converged, because of the error or the length of the step, all steps are accepted and the result is exactly the double z. If the distance is at most 2^(52k)/4 |z| the run takes at most k + 2 iterations (k = 10 covers everything up to 1e150). From starts between 2e-7 and |z|/2 away it takes exactly 2 iterations and ends with kMinError, as tests/basic.cpp requires for its start.", "quantifier": "all doubles z and all starting doubles in these ranges, both values of check_final_cost, any contents of fresh memory", "why_tests_cant": "the test starts from 1 with z = 2 and checks final_cost < 1e-5", "anchors": ["tests/basic.cpp:72-87", "include/tinyopt/solvers/gn.h:SolverGN::Build", "include/tinyopt/solvers/gn.h:SolverGN::Solve", "include/tinyopt/optimizers/optimizer.h:Optimizer_::Step", "include/tinyopt/math.h:232-240"]}
{"id": "C121", "title": "The Gradient Descent test of tests/unconstrained.cpp in IEEE double arithmetic from all starting points", "statement": "TestSimpleGradientDescent (cost 3 y^2 + y^4 - 2 with y = x - 42, learning rate 0.01, at most 1000 iterations) with every operation rounded to double and any std::pow whose relative error is at most 2^-50: from every double at most 6.8 from 42 the run ends as converged with the reason kMinDeltaNorm after at most 251 of its 1001 iterations, every step is accepted although the subtraction of 2 cancels most digits of the cost, the distance to 42 after i steps is at most 6.8 * 0.9401^i, and the result is within 2e-6 of 42 (the test asks for 1e-5).", "quantifier": "all starting doubles in [35.2, 48.8], all functions pow3, pow4 with that accuracy, both values of check_final_cost, any contents of fresh memory", "why_tests_cant": "the test starts from 40.1 only, with the std::pow of one libm", "anchors": ["tests/unconstrained.cpp:19-42", "include/tinyopt/solvers/gd.h:107-134", "include/tinyopt/optimizers/optimizer.h:Optimizer_::Step", "include/tinyopt/optimizers/optimizer.h:Optimizer_::OptimizeAcc"]}
{"id": "C122", "title": "The derivatives written by hand in the tests", "statement": "The gradients and Hessians that the tests pass to the solvers are the derivatives of the costs next to them: Rosenbrock, the plateau, Powell's singular function (tests/optimize_easy.cpp), Freudenstein-Roth (tests/optimize_hard.cpp), the layers of the perceptron and the gradient of its training step (tests/nn.cpp).", "quantifier": "all points; all numbers of inputs and samples, all batches and scales for the perceptron", "why_tests_cant": "CheckGradient compares gradients at the starting point only and does not look at Hessians; the Jacobians of the perceptron are compared on random batches", "anchors": ["tests/optimize_easy.cpp:40-60", "tests/optimize_easy.cpp:93-127", "tests/optimize_easy.cpp:158-200", "tests/optimize_hard.cpp:157-183", "tests/nn.cpp:62-135", "tests/nn.cpp:251-273"]}
{"id": "C123", "title": "Gauss-Newton finds the minimum of a vector of residuals x - z to the last bit in double arithmetic", "statement": "Gauss-Newton with the default options on n parameters (n up to a billion) with the residuals x - z, gradient x - z, Hessian I, every operation rounded to IEEE double, the system solved by Eigen's LDLT with its pivoting, and the cost squaredNorm() or norm() summed in double: from every start whose coefficients are at most 1e140 away from those of z (which are at least 1e-5 in absolute value) the run ends as converged with the result z, exactly, in every coefficient; if the distances are at most 2^(52 k)/4 abs(z_i) it takes at most k + 2 iterations, all of them accepted. From a start within abs(z_i)/2 in every coefficient and at least 5e-6 away in one it takes exactly 2 iterations and the reason is kMinError.", "quantifier": "all n up to 10^9, all z and all starting vectors of doubles in the stated ranges, all costs that satisfy the four stated properties (shown for squaredNorm() and norm()), both values of check_final_cost, any contents of fresh memory", "why_tests_cant": "tests/optimizers.cpp runs one vector of three numbers with a tolerance", "anchors": ["tests/optimizers.cpp:99-113", "include/tinyopt/math.h:232-240", "include/tinyopt/solvers/gn.h:SolverGN::Solve", "include/tinyopt/optimizers/optimizer.h:Optimizer_::Step", "include/tinyopt/optimizers/optimizer.h:Optimizer_::OptimizeAcc"]}
{"id": "C124", "title": "Optimizers on float: runs in mixed precision", "statement": "In an optimizer with Scalar = float (systems, steps and damping are floats, costs and stop criteria doubles): (1) every run with max_consec_failures > 0 returns within its iteration budget, all saved costs are finite, the reported cost is the least of them and the best cost never increases, because floats become doubles without loss and in the same order; (2) kMinRelError is only reported if the best cost was above 1e-4f (and below the largest float); (3) a damping lambda > 0 increases every positive coefficient of the diagonal, to h (1 + lambda) up to rounding; (4) a finite step is not refused for being infinite. (3) and (4) do not hold: the product h * (1 + lambda), computed in double and rounded to float, is h for every lambda <= 2^-26 (the default range ends at 1e-9f), so that Levenberg-Marquardt solves the undamped system; the squared length of a step is a float, infinite as soon as a coefficient reaches 2^64, and the run stops with kSystemHasNaNOrInf.", "quantifier": "all user functions, options, linear solvers, starting points and solver states; for (3) all systems of floats and all dampings up to 2^-26 resp. all without overflow; for (4) all steps with such a coefficient", "why_tests_cant": "tests/sqrt2.cpp is the only test of an optimizer on float; it has one parameter, three starts and ends before the damping gets small", "anchors": ["include/tinyopt/optimizers/optimizer.h:Optimizer_::Step", "include/tinyopt/solvers/lm.h:SolverLM::Build", "include/tinyopt/solvers/lm.h:SolverLM::GoodStep", "include/tinyopt/solvers/gn.h:SolverGN::Solve", "tests/sqrt2.cpp:30-56", "include/tinyopt/math.h:FloatEpsilon"]}
{"id": "C125", "title": "Robust losses in floating point", "statement": "In IEEE arithmetic, for a finite positive threshold th2 and squared norms a <= b that are not negative (or infinite after an overflow): (1) the losses of Truncated, Tukey, Huber, Arctan, Cauchy satisfy 0 <= loss(a) <= loss(b) with no exception from rounding, underflow or overflow, that of BlakeZisserman loss(a) <= loss(b) (for a libm with monotone functions), and Truncated and Tukey stay finite and at most th2; (2) GemanMcClure is between 0 and 1; (3) the exported scales of Huber, Arctan and Cauchy are numbers between numeric_limits::min() and 1, also after an overflow; (4) a NaN residual is not hidden; (5) losses and scales of finite residuals are finite. (2), (4), (5) do not hold: GemanMcClure of an infinite squared norm is NaN and of a sum that overflows 0; Truncated and Tukey take a NaN for an outlier, with the good loss th2 and the scale 0; BlakeZisserman with th2 >= 746 (float: 104) has the loss +inf and the scale NaN for every residual with squared norm >= 746 (104), and the run stops at once; a Tukey threshold whose square underflows gives infinite or NaN scales for all inliers.", "quantifier": "all binary formats of 6 or more bits (Huber) resp. all formats with monotone rounding, all thresholds and squared norms, all implementations of exp, log, atan2 with the stated behaviour", "why_tests_cant": "the tests evaluate the losses on a few residuals near the threshold; monotony across a rounded threshold, overflow and NaN are not tested", "anchors": ["include/tinyopt/losses/robust_norms.h"]}
{"id": "C126", "title": "Activations in floating point", "statement": "In IEEE double arithmetic: (1) Sigmoid of every x that is not NaN, infinities included, is between 0 and 1 and its exported derivative between 0 and 1/2, also where exp overflows; (2) Sigmoid, ReLU and LeakyReLU (positive slope) never decrease; (3) Tanh is between -1 and 1 with a derivative between 0 and 1, for every x; (4) Tanh(x) is close to x for small x; (5) NaN is passed on. (3), (4), (5) do not hold: Tanh is NaN for every |x| >= 710, since it divides infinity by infinity; Tanh(x) = 0 for every |x| < 2^-55; ReLU of NaN is 0 with derivative 0.", "quantifier": "all numbers of all formats with monotone rounding, all exp with results that are not negative (monotone for (2)); for Tanh all x where exp overflows as it does from 2^1024 on", "why_tests_cant": "tests/activations.cpp evaluates the functions on random vectors in [-1, 1]", "anchors": ["include/tinyopt/losses/activations.h", "include/tinyopt/losses/helpers.h"]}
{"id": "C127", "title": "Norms and distances in floating point", "statement": "In IEEE arithmetic, for every order of the summations: (1) the norms of a vector without NaN are not NaN, and a NaN is not lost by SquaredL2, L2, L1; (2) Linf is the largest coefficient exactly, L1 is not below it, and L2 is not below any coefficient; (3) L1 has a relative error of at most (1+u)^h - 1, the square of L2 of at most (1+u)^(h+3) - 1, h the depth of the summation; (4) every coefficient of the exported Jacobian of L2 is between -1 and 1 and the Jacobian has length 1 up to rounding; (5) the distances L1, L2, Linf are symmetric, zero only for equal vectors, and fulfil the triangle inequality. The length in (4) and parts of (5) do not hold: a coefficient of 2^512 makes L2 infinite and its Jacobian zero; vectors that differ by at most 2^-538 per coefficient have L2 distance 0; roundings of the differences can break the triangle inequality.", "quantifier": "all vectors of numbers of an IEEE format (any size; infinities and NaN where stated), all orders of summation (binary trees over the coefficients)", "why_tests_cant": "tests/norms.cpp and tests/distances.cpp evaluate the functions on a few small vectors; none tries large, small or not finite coefficients", "anchors": ["include/tinyopt/losses/norms.h", "include/tinyopt/distances.h"]}
{"id": "C128", "title": "The Mahalanobis distance between two points", "statement": "distances::MahaNorm(a, b, Sigma) is a metric for every positive definite covariance (given at least by its upper triangle), for positive variances and for scalars; it does not change when both points are moved by an invertible affine map and the covariance with them; variances are the covariance with that diagonal, and the identity gives the Euclidean distance; whitening by standard deviations is whitening by the covariance with their squares on the diagonal, entry by entry; the two exported Jacobians are the derivatives with respect to the two points, and the Jacobians of the whitening and of the norms given an input Jacobian are the ones with respect to its parameters. The Jacobians are wrong for distinct points at a distance up to FloatEpsilon().", "quantifier": "all dimensions, points, positive definite covariances, positive variances and standard deviations, invertible matrices, and differentiable residuals", "why_tests_cant": "tests/distances.cpp and tests/mahalanobis.cpp compare the value and the Jacobians with numerical ones for one random pair; metric properties, invariance and the input Jacobians are not tested", "anchors": ["include/tinyopt/distances.h:MahaNorm", "include/tinyopt/losses/mahalanobis.h"]}
{"id": "C129", "title": "The square root test with Levenberg-Marquardt in double, from all starts of magnitude 1 to 100", "statement": "TestSqrt2Jet and TestSqrt2Jet2GN of tests/sqrt2.cpp, which use the default Levenberg-Marquardt solver with automatic differentiation and max_iters = 20, computed in IEEE double with Eigen's LDLT: from every double of magnitude 1 to 100 the run succeeds and converges within 20 iterations, all steps accepted, because of the error, the step or the gradient (never the relative decrease); the result has the sign of the start and is within 2e-7 of plus or minus the square root of 2.", "quantifier": "all doubles x0 with 1 <= abs(x0) <= 100, with and without downscale_by_2 and check_final_cost, all worlds and fuels", "why_tests_cant": "tests/sqrt2.cpp runs three starts on one machine and checks 1e-5; all starts, the bound on the iterations under rounding and the sign cannot be enumerated", "anchors": ["tests/sqrt2.cpp:56-70", "tests/sqrt2.cpp:91-101", "include/tinyopt/optimizers/optimizer.h:Optimizer_::Step", "include/tinyopt/diff/optimize_autodiff.h:108-121"]}
{"id": "C130", "title": "Jets of the Bessel functions with the POSIX functions carry all derivatives, for all orders and arguments", "statement": "In the branch of jet.h for POSIX, BesselJ0, BesselJ1 and BesselJn of a jet, also of jets of jets to any depth k, carry the value and every partial derivative up to order k of the Bessel function of the first kind composed with the code that computed the jet, for all integer orders (negative ones too) and all real arguments (negative ones too), if the orders asked for, up to k away, fit in int. With the largest or the smallest int as the order, computing the derivative overflows.", "quantifier": "all jets, all code inside the domains of its operations, all depths, all integer orders at least the depth away from the ends of int", "why_tests_cant": "no test of the repository touches the Bessel functions; orders, arguments, and depths are unbounded and second derivatives are never compared", "anchors": ["include/tinyopt/3rdparty/ceres/jet.h:910-992"]}
{"id": "C131", "title": "Levenberg-Marquardt on x - z in double arithmetic, in up to a thousand dimensions, for all starts", "statement": "In IEEE double arithmetic (round to nearest even, overflow and subnormals included, no reassociation), Levenberg-Marquardt with the default options on n residuals x - z, 1 <= n <= 1000, with gradient x - z and Hessian I, solved by the pivoting LDLT of Eigen, and as cost squaredNorm() or norm() of the residuals: for every z of magnitude at most 1e6 and every start at most 1e139 away from z in each coefficient, the run succeeds, converges because of the error or the step (never because of the relative decrease or the gradient), takes at most 39 iterations, accepts every step, and ends within 1e-9 of z in every coefficient.", "quantifier": "all dimensions up to 1000, all z up to 1e6 and all double starts up to 1e139 away, all initial contents of gradient and Hessian, with or without the final cost check", "why_tests_cant": "the tests run one start per problem; in doubles the last steps are rounding noise, and a test cannot see that for every start the damped steps keep being accepted and that noise never keeps the criteria from holding", "anchors": ["tests/userdef_params.cpp:46-112", "tests/types.cpp:42-90", "tests/optimizers.cpp:99-113", "include/tinyopt/solvers/lm.h:60-198", "include/tinyopt/optimizers/optimizer.h:Optimizer_::Step"]}
{"id": "C132", "title": "Signed zeros do not matter to the optimizer", "statement": "In IEEE 754 arithmetic with both zeros (sign rules of 6.3, sqrt(-0) = -0, division by -0), forgetting the sign of zeros commutes with every operation and comparison except a division by -0. The optimizer and the solvers never divide by -0 (bad_factor not negative, pivot tolerance not negative): a whole run of Levenberg-Marquardt, Gauss-Newton (pivoting LDLT of Eigen or inverse) or gradient descent in double with signed zeros has the same outcome, stop reason, counters, history, trace, parameters and Hessian as the run with one zero, up to the signs of zeros. So the theorems about runs in double hold with signed zeros: in particular the runs on x - z of tests/userdef_params.cpp and tests/types.cpp converge for all starts, zeros of either sign included.", "quantifier": "all formats and all operands for the operations; all options, problems whose functions do not depend on the sign of a zero, solver states and starts for the runs", "why_tests_cant": "a test with -0 among its inputs sees one run; that no divisor anywhere in the solver, the damping or the decomposition can ever be -0 is a statement about all intermediate results", "anchors": ["include/tinyopt/optimizers/optimizer.h:Optimizer_::Step", "include/tinyopt/solvers/lm.h:60-198", "include/tinyopt/solvers/gn.h:49-171", "include/tinyopt/solvers/gd.h:107-134", "include/tinyopt/math.h:232-240", "tests/userdef_params.cpp:46-112"]}
{"id": "C133", "title": "Classification, sign, abs and copysign of jets in double, with signed zeros", "statement": "For jets of IEEE doubles with both zeros, infinities and NaN: fpclassify, isfinite, isinf, isnan, isnormal and signbit look only at the scalar part, the five classes are exclusive, zero is what compares equal to zero, isnormal is the class normal. abs of a jet that is not NaN clears the sign bit, keeps the magnitude and negates every partial derivative exactly if the sign bit is set, also at -0. copysign(f, g) with f finite, g neither zero nor NaN and g.v finite has the magnitude of f, the sign bit of g and exactly the partial derivatives of f, negated if the signs differ. If g is a zero the value is right, and each partial derivative is NaN where f or that partial derivative of g is zero (so always for a constant g) and otherwise an infinity with the sign of that derivative of g. If f is infinite all partial derivatives are NaN.", "quantifier": "all jets of doubles of every size (classification: all formats)", "why_tests_cant": "zeros of both signs, subnormals, infinities and NaNs in every component make too many combinations; a test with a few values does not see that the zero delta term never disturbs a derivative", "anchors": ["include/tinyopt/3rdparty/ceres/jet.h:556-595", "include/tinyopt/3rdparty/ceres/jet.h:1031-1053", "include/tinyopt/3rdparty/ceres/jet.h:1127-1136"]}
{"id": "C134", "title": "Printed containers and matrices can be read back", "statement": "The elements of a printed std::array or std::vector are separated by exactly one space and can be read back; of nested containers nothing is lost. The formatter of dense matrices prints a column vector on one line and any other matrix row by row in aligned columns as wide as the longest entry; splitting the text at newlines and spaces gives the entries, so two matrices of the same size with the same text are equal. The step in the log (print_dx) stays on one line. TINYOPT_LOG_MAT prints the size of the matrix readably.", "quantifier": "all sizes, all entries whose texts are not empty and contain no space or newline", "why_tests_cant": "a test compares the text of a few matrices; that the text determines the entries for all sizes and widths is a statement about a decoder", "anchors": ["include/tinyopt/formatters.h:15-82", "include/tinyopt/log.h:72-94", "include/tinyopt/optimizers/optimizer.h:495"]}
{"id": "C135", "title": "The rectangle of tests/userdef_params_jet.cpp", "statement": "The user-defined parametrization of the rectangle is an action of R^4: no step changes nothing, two steps are their sum, each rectangle is reached from each other one by exactly one step, whose coordinates are the changes of the centre and of the size. Automatic differentiation through PlusEq gives the derivative of the residuals along the update, also with max. The residuals vanish only at the rectangle with area 10*20, width twice the height and centre (1, 2); the cost has no other local minimum; above the guard the Jacobian is nonsingular, so the gradient vanishes only there.", "quantifier": "all rectangles, all steps, all values of the guard between 0 and 80", "why_tests_cant": "a test follows one run to one minimum; whether other zeros, local minima or singular points exist is a statement about all rectangles", "anchors": ["tests/userdef_params_jet.cpp:20-120", "include/tinyopt/diff/auto_diff.h:17-119"]}
{"id": "C136", "title": "The minima of the test problems", "statement": "Each test problem of tests/optimize_easy.cpp and tests/optimize_hard.cpp has its minimum where the test asserts it. Rosenbrock, Powell and Beale have exactly one local minimum; Himmelblau has exactly four zeros and no other local minimum; the plateau has its only global minimum at (pi, pi) and infinitely many other local minima; Wood has one zero. Freudenstein and Roth have exactly two local minima, and no path from the start of the test below its cost leads to (5, 4). The gradient of Jennrich and Sampson vanishes at exactly one point of the diagonal, near 0.2578, a local minimum. The matrices of the steps are definite, or singular, as the comments of the tests say.", "quantifier": "all points of the plane (of R^4 for Powell and Wood), all dampings, all continuous paths", "why_tests_cant": "a test looks at one run; that there is no other minimum a run could end in is a statement about all points", "anchors": ["tests/optimize_easy.cpp:28-215", "tests/optimize_hard.cpp:26-295"]}
{"id": "C137", "title": "Newton's method on Powell's and Rosenbrock's functions", "statement": "Gauss-Newton with the derivatives the tests write is Newton's method. On Powell's function, from every start with x1 != 2 x2 and x0 != x3, every step is accepted, after k >= 1 steps x0 + 10 x1 = 0 and x2 = x3, and x1 - 2 x2 and x0 - x3 are exactly (2/3)^k times those of the start: linear convergence only, the cost falls by exactly 16/81 per iteration after the first. On Rosenbrock's function, from every start on or below the parabola x1 = x0^2 with |1 - x0| < 1/10, every step that does not start at (1, 1) is accepted and lowers the cost, and |1 - x0| shrinks by at most 2/3 per iteration from the second on. The bound 1/10 is sharp: from every start on the parabola with |1 - x0| >= 1/10 no iteration after the first succeeds and the result is never better than the start.", "quantifier": "all such starts, all optimize options and stop criteria, any exact factorization, dynamic or fixed sizes, any number of iterations", "why_tests_cant": "a test runs one start of each function; the exact rate and the region of convergence are statements about all starts and all iterations", "anchors": ["tests/optimize_easy.cpp:28-80", "tests/optimize_easy.cpp:155-225", "include/tinyopt/solvers/gn.h:60-204", "include/tinyopt/optimizers/optimizer.h:150-420"]}
{"id": "C138", "title": "Levenberg-Marquardt gives up at the start when its few growing dampings do not help", "statement": "In exact arithmetic, a Levenberg-Marquardt run with max_consec_failures = N whose steps from the start x0 with the dampings of the even iterations below N do not lower the cost, and meets no stop criterion, ends after N + 1 iterations at x0 with kMaxConsecNoDecr: only about N / 2 steps are tried, because every second iteration only evaluates the start again, and the damping of iteration i + 1 is the one of iteration i times bad_factor to the power i, clamped to damping_range. On the residual x * x - a with automatic differentiation this happens from every start with 0 < x0 ^ 2 <= 25 / 128 a while the dampings tried stay below 1 / 150; with the default damping and N <= 6 (3 in the benchmarks, 5 by default) from every start with 1e-3 <= |x0| <= 5 / 8 for a = 2, among them the start 0.480009157900 which benchmarks/dense.cpp reports as failing to converge.", "quantifier": "all problems with a cost, a gradient and a Gauss-Newton matrix, all solver and optimizer options without callbacks or time limit, all starts and step sequences as in the hypotheses; for the square root all a > 0 and all starts in the range", "why_tests_cant": "The benchmark draws its starts at random and only counts the failures; no run says which set of starts fails, nor that the reason is the number of dampings tried rather than rounding.", "anchors": ["benchmarks/dense.cpp:28-51", "benchmarks/options.h:11-27", "include/tinyopt/solvers/lm.h:56-178", "include/tinyopt/optimizers/optimizer.h:150-420"]}
{"id": "C139", "title": "The benchmark \"Prior\": agreement of the two branches, and the rate of Levenberg-Marquardt", "statement": "The cost function loss2 of the benchmark Prior returns the same cost with and without derivatives, its gradient is half the gradient of the cost and its matrix is J^T J; and in exact arithmetic Levenberg-Marquardt on it accepts every step, multiplies the error x - y in every iteration by exactly lambda / (1 + lambda) with a damping lambda of at most the initial one, whatever the nonzero standard deviations, and ends as converged: with the options of the benchmarks, up to 50 parameters and all numbers in [-1, 1], after at most 4 iterations with the error divided by at least 10000 in each. The first part is violated: MahaWhitened takes the vector as standard deviations, MahaSquaredNorm as variances, so the costs agree everywhere only if every standard deviation is 1, and the cost without derivatives is negative somewhere if one of them is negative, as in the random vector of the benchmark.", "quantifier": "all numbers of parameters, all priors, all nonzero vectors of standard deviations, all starts, all solver options with a damping that does not grow after accepted steps, any exact factorization, fixed or dynamic sizes", "why_tests_cant": "The benchmark measures time with random numbers and only counts converged runs; the branch without derivatives is called only after rejected steps, which do not occur here, so no run shows the mismatch.", "anchors": ["benchmarks/dense.cpp:53-82", "benchmarks/dense.cpp:84-115", "benchmarks/options.h:11-27", "include/tinyopt/losses/mahalanobis.h:36-52", "include/tinyopt/losses/mahalanobis.h:111-137", "include/tinyopt/solvers/lm.h:60-178"]}
{"id": "C140", "title": "The damping of a Levenberg-Marquardt solver that is used directly", "statement": "After any successful Build of a SolverLM that was told by Rebuild(false) to keep its system, the matrix is the one the user computed at the last full Build, with the diagonal damped by the current lambda_, so Solve returns the step of that damped system; the cost is the one of the last point and the derivatives are not computed again. This holds if exactly one of GoodStep and BadStep is called before every further Build. It is violated otherwise: Build damps relatively to prev_lambda_, which is 0 in a new solver and is only set by the hooks. In a new solver k further Builds without a hook multiply the diagonal by (1 + lambda_)^(k+1), so in the test tinyopt_solvers_skip_rebuild, whose margin hides it, the step is divided by that number and goes to 0; and after two calls of BadStep the damping is wrong whenever the first of them changed lambda_.", "quantifier": "all problems with a positive semi-definite matrix, all solver states of the right size, all points, all numbers of calls, all step qualities, all solver options without clipping and with a positive lower bound of the damping", "why_tests_cant": "The test calls Build once more, with a damping of 1e-4 and a margin of 1e-2, so it passes with a step of either length; other sequences of calls are not tested.", "anchors": ["tests/solvers.cpp:74-110", "include/tinyopt/solvers/lm.h:46-55", "include/tinyopt/solvers/lm.h:60-121", "include/tinyopt/solvers/lm.h:123-148"]}
{"id": "C141", "title": "The benchmark \"Sparse\": ways to write the Hessian, and the rate of Levenberg-Marquardt", "statement": "The four ways of the benchmark Sparse to write the sparse Hessian (coeffRef, triplets, sparseView of a dense product, product of sparse Jacobians) give the same coefficients, those of J^T J, from the empty matrix that the solver passes; coeffRef gives them only if the matrix has no other nonzero entries. The gradient is half the gradient of the square of the returned cost, which is the norm of the residuals. In exact arithmetic Levenberg-Marquardt with a sparse Hessian accepts every step, multiplies the error x - 1/5 in every iteration by exactly lambda / (1 + lambda) with a damping of at most the initial one and ends as converged: with the options of the benchmarks, up to 1000 parameters in [-1, 1], after at most 4 iterations with the error divided by at least 10000 in each.", "quantifier": "all numbers of parameters, all starts, all solver options with a damping that does not grow after accepted steps, any exact sparse factorization", "why_tests_cant": "The benchmark measures time and checks nothing; three of the four ways are disabled at compile time and never run.", "anchors": ["benchmarks/sparse.cpp:23-50", "benchmarks/sparse.cpp:52-62", "benchmarks/options.h:11-27", "include/tinyopt/solvers/lm.h:60-178"]}
{"id": "C142", "title": "A cost function that forgets its derivatives", "statement": "A run with a cost function that returns a valid cost but leaves the gradient and the Hessian that it is given unchanged is not reported as a success. With a positive check_min_H_diag this holds for Gauss-Newton and Levenberg-Marquardt from any start: the run ends with kSolverFailed after one iteration, with empty histories and the parameters unchanged, as the test \"Forgot to update H\" asks. It is violated without that check, which is the default: Eigen accepts the zero matrix as positive and solves with it to a zero step, so from any start, whatever its cost, both solvers claim to have converged after one iteration; gradient descent, for which there is no such check, always does.", "quantifier": "all such functions, all dimensions, all starts, all solver states of the right size, all optimizer options without a time limit and (for the failure) with a limit of 1 to 255 consecutive failures and at most 65535 iterations or (for the violation) with a positive minimal step, all tolerances of the decomposition", "why_tests_cant": "The test has one function of one parameter, one start, Gauss-Newton and the check switched on; the default is not tested.", "anchors": ["tests/basic.cpp:219-234", "tests/basic.cpp:147-156", "include/tinyopt/solvers/gn.h:133-139", "include/tinyopt/solvers/lm.h:82-88", "include/tinyopt/optimizers/options.h:63", "include/tinyopt/math.h:232-240"]}
