# Formal model of ellalgo-rs in Lean 4

Layout

* `properties.jsonl`   the English properties C01..
* `lean/Verif/Model/*` the model, one Lean file per Rust file, every definition cites the Rust lines.
* `lean/Verif/Spec/*`  small independent specifications (ellipsoid as a set, honest oracle, run of a loop).
* `lean/Verif/Lib/*`   helper lemmas (loops, row-major indexing, matrices).
* `lean/Verif/Props/*` the property theorems, named `Cnn_...`, with non-vacuity examples beside them.
* `MANIFEST.json`      property -> theorem names.
* `seeded/LOG.jsonl`   wrong-program experiments.

## Modelling decisions

**Scalars.** The Rust code computes in `f64`. The model is written over an arbitrary scalar type `α`
carrying only operations, no laws (`Scalar α`: + - * / neg, conversions from integers, sqrt, exp, ln, cos,
abs, round, Boolean comparisons ...). It is then used at six instances:

* any `α`: theorems about control flow, state, shapes, panics and exact bit equality hold for *every*
  interpretation of the arithmetic, hence for IEEE-754 `f64` with NaN and infinities;
* `ℝ`: theorems about geometry and convergence are in exact arithmetic, without rounding error.
  In `ℝ` Lean totalises `x/0 = 0`, `√(-x) = 0`, `ln(-x)=ln x`; theorems therefore carry hypotheses that
  exclude those inputs (nonzero gradient, n ≥ 2, positive radicand ...);
* `Chk`: reals, the two infinities and an undefined value; shows that admissible runs never divide by zero (C69, C76)
  and what a run does that starts at `gamma = ±∞` (C85). No signed zero: `1/0` and `ln 0` are undefined;
* `Fl R`: reals with every operation rounded by an arbitrary radix-two rounding with relative error `u`
  (`Spec/Rounded.lean`; `f64` apart from overflow, underflow and NaN); used for C71, C82 and later claims on rounding;
* `B64`: IEEE-754 binary64 in full (`Spec/Binary64.lean`: subnormal numbers, overflow, signed zeros, infinities, one NaN;
  `exp`, `ln`, `cos`, `log10` taken as correctly rounded); used for C99 and C100;
* `Float`: the model is executable; `Verif/FloatTests.lean` reruns numbers from the repository's own tests
  through the model (`#guard`). These are sanity tests of the model's faithfulness, not proofs, and no
  theorem depends on them.

**Panics.** `Res β` is `ok b | panic`. Slice indexing out of bounds, `assert!`, `debug_assert!`
(debug profile assumed), `unwrap` on None are `panic`. Integer overflow and allocation failure are not
modelled (`usize` is `Nat`, subtraction is only used where it cannot underflow or is guarded).

**Mutable references** become extra return values. **Traits** become structures of functions over an
arbitrary state type, so the loops are verified for every oracle and every search space.
Logging has no effect on results and is dropped. `Clone` is identity.

**Loops.** `for` loops with no early exit are `forRange`/`forDown` (structural recursion); loops with early
return are structural recursions on the number of remaining iterations.

## Per property plan

| id | model | proof |
|----|-------|-------|
| C01 C02 | `cuttingPlaneFeas` generic in oracle/space/scalar | iff-characterisation against an inductive run relation, by induction on remaining iterations |
| C03 | `cuttingPlaneOptim` | induction with a history (list of query events) |
| C04 | `cuttingPlaneOptimQ` | same, history of (retry flag, status) |
| C05 | `BSearchAdaptor.assessBs` | unfold + C01 |
| C06-C08 | `bsearch` | induction; C06, C07 at ℝ |
| C09-C11 | `Ell`, `EllStable`, `Arr` at any scalar | Hoare rule for loops on row-major lists |
| C12 | `Ell` at ℝ vs Mathlib matrices | loop invariants |
| C13 | `Ell` at ℝ | Cauchy-Schwarz in the M inner product |
| C14-C19 | `EllCalc`, `Ell` at ℝ | Sherman-Morrison; pencil `(t+β0)(t+β1) ≤ 0` |
| C20 | same | matrix determinant lemma, `1+x ≤ exp x`, Löwner-John dual weights for the parallel cut |
| C21 | `Ell` at ℝ | bisimulation |
| C22-C25 | loops + `Ell` at ℝ, abstract honest oracle | invariants + volume; ball inclusion gives a determinant lower bound |
| C26 | any scalar | unfolding |
| C27 | ℝ | algebra |
| C28 | `EllStable` at ℝ | property is FALSE of the code: counterexample theorems; `_partial`: every single step from a diagonal matrix, and whole runs with axis-parallel gradients |
| C29-C32 | `LDLTMgr` at ℝ | row-by-row invariant `A = L D Lᵀ` on the leading block |
| C32 | | converse direction is FALSE of the code: counterexample + `_partial`; `C32_accepted_iff` states exactly which matrices are accepted, in terms of the block vocabulary of `Spec/SemiBlocks.lean` |
| C33-C36 | LMI oracles | from C29, C31, linearity; C34 at any scalar by simulation |
| C37-C39 | `conjugateGradient` at ℝ | residual invariant; conjugacy; C39 is FALSE of the code: counterexample |
| C40-C41 | `powerIteration*` at ℝ | loop induction |
| C42-C44 | `Arr` | loop lemmas |
| C45-C47 | `LowpassOracle` | cyclic index arithmetic; linearity; C47 is FALSE of the code |
| C48-C49 | profit oracles at ℝ | gradient inequality of log-sum-exp (Jensen) |
| C50 | SVM oracle at ℝ | |
| C51 | maxcut oracle, any scalar / ℝ | induction over histories |
| C52 | quasicvx oracle at ℝ | |
| C53 | `EllCalc` at ℝ | FALSE of the code for β < -τ/n: counterexamples; the rest is proved (`_partial`) |
| C54 | `conjugateGradient` at ℝ | energy-norm decrease, residual invariant |
| C55 | `powerIteration*` at ℝ | expansion in an eigenbasis, geometric decay of the other components |
| C56 C61 | `cuttingPlaneOptim` + `Ell` at ℝ | C25 plus a small ball near the minimiser inside the level set |
| C57 C52 | `MyQuasicvxOracle` at ℝ | first-order inequality; C61 |
| C58 C59 | example1, example1_rr, example3, example4 oracles | round-robin index arithmetic; linear inequalities; C22/C56 |
| C60 C62 | `ProfitRbOracle`, `ProfitOracle` | monotonicity of the worst case; C61 |
| C63 | `SvmOracle` + loop | hinge-loss subgradient; value recorded at every query |
| C64 | `LowpassOracle` + loop | C25 with the oracle's invariant |
| C65 | `bsearch` + `BSearchAdaptor` + `Ell` | bracket invariant + C22 for each probe |
| C66 | `Ell` update, `EllCalcCore` strategies; Lebesgue measure of `ellipsoid` | optimality certificate: averaging the competitor's inequality over the two rims of the slab gives a trace bound, AM-GM turns it into a determinant bound; a cut with `beta0 < -tau` is excluded (its slab is larger than what is left of the ellipsoid) |
| C67 | strategies and `Ell` update | homogeneity of every formula; state equality as data |
| C68 | all four loops + `Ell` | relational (lockstep) induction on the loops, `Spec/Affine.lean` defines the correspondence |
| C69 | `Ell`, strategies, feas and optim loops over `Chk` = ℝ, ±∞, undefined (`Spec/Checked.lean`) | the checked run equals the image of the real run, by induction; so the totalised `x/0 = 0`, `√(-x) = 0` of Lean's ℝ are never exercised by an admissible run. Negative: zero gradient, `n = 1` |
| C70 | `cuttingPlaneOptimQ` on `Ell`, contract `HonestOptimQ` | case analysis of one `update_q` (`Lib/StepQ.lean`, including cuts that only touch), then induction on remaining iterations |
| C71 | the same model over `Fl R`, reals rounded after every operation (`Spec/Rounded.lean`); `bin53` is binary64 round-to-nearest-even | running error analysis by induction on the sum; invariant of the bisection loop; evaluation of `rnd53` for the witnesses |
| C72 | `cuttingPlaneOptim` over `Ell` with a `Maximizes` oracle (as C56); the linear examples with the settings of their unit tests | the ball `(1-θ)x + θ·ball(p,r)` consists of points within `θV` of `f x`; apply C25 to it; let `θ` tend to the rate |
| C73 | `Model/TestOracles` (quadratic oracles of tests/ and benches/), `Spec/Quadratic` | an answer that does not reach the goal `γ ≤ ε` keeps all points of value at most `ε/4` (weighted Cauchy-Schwarz) and has a long gradient; volume argument until the goal is met. Applied to two tests with their own settings. Finding: `beta = f(x)` is not an honest offset (witness); the benchmark does one iteration only |
| C74 | `Model/TestOracles` (`MyLmi`), `Spec/MyLmi` | evaluate the three rounds of the round robin from each index; the last clause is false: `*gamma = f0` happens before the remaining constraints are tested (`C74_value_overwritten`), and `C74_loses_solutions` runs it end to end to `None` although the disc contains a ball of feasible points |
| C75 | `Model/TestOracles` (`Portfolio`), `Spec/Portfolio` | evaluate the loops of `assess_optim`; convexity of `xᵀRx` for the risk cut; ball-keeping and volume for the goal (`C75_near_optimal_partial`); the last clause is false as stated: at a feasible point that is no improvement the oracle returns a zero gradient, which ends the run (`C75_stops_at_feasible_points`), and the shipped example ends at the zero portfolio (`C75_example_returns_zero`) |
| C76 | the same models over `Chk` (`Spec/CheckedOracles.lean`) | routine by routine: the checked run equals the image of the real run; pivots are positive, the breakdown test of conjugate gradient comes before its divisions, `‖Ax‖ > 0` for invertible `A`. Negative: a zero start of `power_iteration` gives NaN (`C76_power_zero_start`) |
| C77 | `feasLoop`, `optimLoop` on the ellipsoid | induction over the loop: a ball of (better) solutions in the current ellipsoid forces `Success` and `tsq ≥ r²G²`, so the loop cannot stop; shrinking the ball towards a better point gives the gap bound |
| C78 | `feasLoop`, `optimLoop` on the ellipsoid, all cut strategies at `ℝ` | potential `det(κM + cI) ≥ cⁿ`: a step with `tsq ≥ tol` lowers it by a fixed factor (rank-one determinant formula, monotonicity of the determinant, bounds on `σ` and `δ`), also for degenerate ellipsoids |
| C79 | all four power iterations at `ℝ` | loop invariant: the vector is the scaled `A^k x`; contraction of the tangent to the eigenvector by `rho²` per step; exactness of a step that changes nothing; disagreement: variants 2 and 3 test the change of the Rayleigh quotient, which can vanish far from the dominant eigenvalue when `A` is indefinite (`C79_rayleigh_stop_wrong`) |
| C80 | `conjugateGradient` at ℝ against `Spec/Krylov.lean` (least energy over `x0 + span{r, Ar, …}`, no algorithm in it) | residuals span the Krylov space and are orthogonal to it (induction); uniqueness of the minimiser; polynomial bound through the eigenbasis, with the vanishing polynomial and with Chebyshev polynomials |
| C81 | the whole model over any scalar type with NaN (`Spec/Nan.lean`: absorbing, incomparable values; true of `f64` as it is, with rounding and overflow) | one update entry by entry; induction over cuts and loop iterations; the factorisation row by row; the oracles by cases on their round-robin loops. Cases over checked arithmetic in `Props/NanExamples.lean` |
| C82 | `LDLTMgr` and the LMI oracles over rounded reals (`Fl R`; no overflow, underflow or NaN); the exact matrices in `Spec/RoundedLmi.lean` | backward error of the factorisation: the computed factors are exact for a matrix close to the given one (`Lib/LdltErr.lean`); Cauchy-Schwarz bounds the error by the trace; back substitution gives an approximate witness whose quadratic form is the negated pivot up to `O(nu)`; run level by induction over the completed iterations. Cases in `f64` rounding in `Props/RoundedLmiExamples.lean` |
| C83 | `Model/TestOracles` (`ex2Oracle`, `qcvx2Oracle`); problems in `Spec/TestProblems.lean` | case analysis on the round-robin position; tangents of exp and sqrt; feasibility run by C22, infeasible run by C84, optimisation run by C61 (objective cuts separate better points with margin ε although gradients may be small). False at feasible points with `x = 0`, where the gradient is `-0.5 / 0` (`C83_quasicvx2_zero`, `C83_quasicvx2_zero_run`, in checked arithmetic); the `_partial` theorems exclude these queries (tripwire `onlyAt`). Both example2 tests with their own settings in `Props/TestOracleExamples.lean` |
| C84 | `Ell` over ℝ | `gᵀ(x-xc)` attains every value in `[-τ, τ]` on the ellipsoid, so the cut misses it iff `β > τ` (or the planes are crossed, or the second plane is beyond `-τ`); case analysis of the strategies. False for parallel cuts with `β0 ≤ β1 < -τ` (`C84_missed_parallel_cut_succeeds`) |
| C85 | the loops, both ellipsoids and the oracles over `Chk` (reals, ±∞ with the rules of IEEE 754, undefined); `Spec/InfStart.lean` | the operations never make an infinity from non-infinite numbers (`Closed`, `Lib/ClosedOps.lean`), so `gamma` is the only infinite number of a run; each oracle compares `gamma` with a non-infinite value before it enters a cut, so finitely many comparisons decide the run and an extreme enough finite `gamma` decides them the same way; induction on iterations (`blank_loop`). Exact runs by C69/C76, the wrong infinity by a separate induction |
| C86 | the example oracles and both loops over `Fl R` (every operation rounded); problems with a margin dial in `Spec/RoundedOracle.lean` | forward error of each test (`ex1_err`, `ex4_err`), exactness of the sign of a rounded number; a returned point was accepted by the oracle with the returned gamma (`optim_accepted`, `feas_accepted`, induction on iterations), for any search space that keeps sizes |
| C87 | `EllStable` over any scalar type | every loop keeps sizes and reads only the first `n` entries of the gradient: relational loop rule (`Lib/StableShape.lean`); too short: the loop over the diagonal reaches the missing entry |
| C88 | `LowpassOracle` over `Fl R`; specification with margin `LpData.feasibleWith` and error `lpErr` (`Spec/RoundedLowpass.lean`) | the computed responses at the grid points determine the answer (`lpFl_assessFeas`, round-robin loop invariants); dot product error (C71), 1-Lipschitz cosine for the table; acceptance rule of runs (`optim_accepted`) |
| C89 | `Ell`, `EllStable` of dimension one over any scalar type with `NonFiniteLaws` (`Spec/OneDim.lean`) | case analysis of the strategies (the scale factor is multiplied by `1/0`), induction over cuts and loop iterations; checked arithmetic for the two concrete cases |
| C90 | three loops with `Ell` and an oracle that always gives the same single cut (`Spec/Repeat.lean`: `reach`, `FirstStop`) | one update maps the reach `τ` to `n/(n+1) (τ - β)`, even for the degenerate ellipsoid left by `β = τ`; induction over iterations |
| C91 | `Model/CpTests.lean`: all oracles of tests/cutting_plane_tests.rs; `Spec/CpTests.lean` | case analysis of the answers, C22 and C84 for the runs, induction over the `optim_q` loop and over the probes |
| C92 | `EllCalcCore`, `Ell` as in C12-C20 | sign analysis of the closed forms; induction over the list of cuts |
| C93 | `SvmOracle` and `cutting_plane_optim` over `Fl R` (every operation rounded with relative error `u`) | forward error analysis of the margin; loop invariant of the search; `optim_accepted` for runs |
| C94 | `MaxcutOracle` and `cutting_plane_optim` over `Fl R` | one fold lemma for the double loop, used once with an error invariant and once with an exact-integer invariant |
| C95 | `ProfitOracle`, `ProfitRbOracle`, `cutting_plane_optim` over `Fl R` | error analysis of log revenue, cost, their difference and the comparison on the log scale; round-robin loop invariant; `optim_accepted` for runs |
| C96 | `EllStable` updates over `Fl R` | the four loops computed exactly for a diagonal matrix; a calculus of relative errors (`Near u k`: agreement up to `k` roundings) over sums of nonnegative terms; induction over the run |
| C97 | the power iterations over `Fl R` | relative errors of sums and norms (`Near`), induction over the loop; the residual by minimality of the Rayleigh quotient, the eigenvalue by the spectral theorem |
| C98 | `conjugateGradient` over any `Scalar` and over `Fl R` | the loop refines the textbook iterates (`Spec/CgIter`); the drift of the carried residual by induction over the iterates, from the rounding errors of one step; a computed witness in `f64` |
| C99 | the same model over `B64`, IEEE-754 binary64 numbers (`Spec/Binary64.lean`) | rounding with subnormals is monotone and keeps sums of any length below a power of two; entries of `M g` bounded, products underflow to zero, `x/0` is not finite; overflow makes `omega` infinite and `inf/inf` a NaN; two concrete runs evaluated exactly |
| C100 | `powerIteration`, `powerIteration2`, `bsearch` over `B64` | squares underflow to zero and the vector is divided by zero; the norm overflows, the vector becomes zero, then NaN; infinity absorbs the interval; induction on the iterations left |
| C101 | `Ell1D` and its updates over the reals | case analysis on the sign of the gradient and on `beta` against `r abs(g)`; the loops by induction on the iterations left with the interval as invariant |
| C102 | `inverseSpectralFact` over the reals, the low-pass oracle | loop invariant for the entries; autocorrelation identity by induction on the length; C45 |
| C103 | `Ell` over `Fl R` with a condition bound (`Ell.Conditioned`, `Spec/RoundedCut.lean`) | error of `gᵀMg` relative to the exact value (C71); the computed ellipsoid is a perturbation of the exact one: Cauchy-Schwarz in the norm of `M`, Löwner order for the inverse; induction on the cuts |
| C104 | `cutting_plane_feas` and `Ell` over `Fl R` (`Spec/RoundedConverge.lean`: `FlHonest`, `Plan`, `EnoughPrecision`) | loop invariant: the ball stays in the ellipsoid inflated by the composed factors of C103; the ball gives the condition bound, the size of the centres and the depth of the cuts; the volume rate bounds the number of cuts. Existence of a precision: continuity at `u = 0` |
| C105 | `cutting_plane_optim` and `Ell` over `Fl R`, `example1.rs`, the example2 test oracle (`Spec/RoundedOptim.lean`: `FlHonestOptim`, `clearlyBetter`) | the invariant of C104 while the ball consists of better points; central cuts satisfy the bounds of deep cuts; once a point of the ball is no longer better, only monotonicity of the sets is used. Repository oracles through C86 |
| C106 | `EllipsoidError` with strings, a parameter for printing `f64` | first letters differ; the decimal digits of a count contain no space and no parenthesis; case analysis; `B64` for NaN |
| C107 | `bsearch`, `BSearchAdaptor`, `Ell` over `Fl R`, `example3.rs` (`Spec/RoundedBsearch.lean`: `FlLevels`) | invariant of the bracket: lower end below `t1`, upper end accepted or original; a rejected probe at `t >= t1` contradicts C105_finds_point; the computed midpoint is off by `u/2 (up-l) + u max` |
| C108 | `LMIOracle`, `LDLTMgr`, `cutting_plane_feas`, `Ell` over `Fl R` (`Spec/RoundedLmi.lean`: `flLmiMat`, `LMIOracle.HasData`) | the rounded cut separates the margin set by `lam/2` (C82_lmi_cut with its slack kept and the point mixed towards `y`), so `g (m - x) <= -lam/2` and the computed `tsq` is at least `lam^2/8`: C104_margin replaces the lower bound on the gradient by this; acceptance by C82_lmi_rounded |
| C109 | `Ell`, `EllCalc`, `cutting_plane_feas`, `cutting_plane_optim` over `B64` and over `Fl bin53` (`Spec/Binary64Run.lean`: `Same`, `Ell.Same64`, `Ell.Safe`, `FeasSafe`, `OptimSafe`) | operation by operation from C99_normal_range; the strategies and the entry-wise description of `update_core` are lifted, the loops follow by induction; C104_disc_f64 and C105_disc_f64 are transferred to IEEE arithmetic |
| C110 | `Ell`, `EllCalc`, `cutting_plane_feas` over `Fl R` with `ParallelCut` (`Spec/RoundedParallel.lean`: `Held`, `CutTo`, `FlHonestPar`, `ParPlan`) | the computed parameters of a parallel cut are compared with exact ones (`SlabFl`, `SlabExact`), the rounded update with the exact update (`SlabStep`, `SlabCore`), the switch and the single-plane branch in `SlabAny`, `DeepAny`; the loop by induction on an invariant with a geometrically growing enlargement; `u0` by continuity at zero |
| C111 | `LowpassOracle`, `cutting_plane_feas` over `Fl R` | C88 gives honesty up to a margin, the gradients have first entry near ±1, then C110 |
| C112 | `cutting_plane_optim`, `LowpassOracle`, `Ell` over `Fl R` with `ParallelCut` (`Spec/RoundedParallel.lean`: `FlHonestParOptim`) | the parameters of a central parallel cut are those of the deep formulas at `beta0 = 0` up to rounding (`SlabCentral`), so the step theorem of C110 covers them; the loop by induction on the invariant of C110, until the target passes `sigma`; C88 gives the honesty of the low-pass oracle |
| C113 | the four power iterations over ℝ (`rayAt`, `dirAt` of `Spec/PowerSeq.lean`) | one step raises the Rayleigh quotient by at least the squared residual over `L` (positive semidefiniteness at `Av - rv`, Cauchy-Schwarz for the form of `A`), so the residuals and the moves of the unit vectors are summable; `‖A^k x‖² ≤ r_k^(2k) ‖x‖²` by induction gives the gap-free bound |
| C114 | `SvmOracle.assess`, `cutting_plane_optim` and `Ell` over rounded arithmetic `Fl` | loop induction with the invariant of C103 (the ball stays in the slightly inflated ellipsoid, the volume falls): a rejecting cut keeps the ball by C93, and an accepting answer has a zero gradient, for which the computed `tsq` is exactly 0 and the loop stops; the margin error is continuous in the unit |
| C115 | `ProfitOracle`, `ProfitRbOracle`, `cutting_plane_optim` and `Ell` over rounded arithmetic `Fl` | the computed cut and profit tend to the exact ones uniformly on bounded sets as the unit falls (closure lemmas `Appr`); an accepted point, however far, has its inputs bounded above, so acceptance lowers the level by at most C u; the loop of C112 with a level that may drift; points better by a margin satisfy every cut, so a ball of them cannot survive N cuts |
| C116 | `conjugateGradient` over rounded arithmetic `Fl` | C98 reduces the run to the textbook iterates in that arithmetic; by induction on the step these tend to the exact iterates uniformly on the systems whose exact residuals are not yet small (closure lemmas `Appr`; the curvature is bounded below by orthogonality and Cauchy-Schwarz); the exact residual is small by step n (C38), so the test passes by then and the curvature never vanishes before |
| C117 | `powerIteration`, `powerIteration2/3/4` over any scalar type | induction on the remaining iterations; the state of the loop is the next member of the sequences of Spec/PowerIter.lean, written with plain functions and sums |
| C118 | the four power iterations over rounded arithmetic `Fl` | C117 gives the computed sequence; each member of it is a composition of multiplications and scalings that tends to the exact one uniformly on the class (closure lemmas `Appr`, `PowClose`, over the finitely many paths of length at most N + 1); N comes from the rate of exact arithmetic (C79) |
| C119 | `spectralFact` with exact real and complex arithmetic and the exact discrete Fourier transform | the transform of a real sequence is conjugate-symmetric, the sign change makes it antisymmetric, so the real part of the inverse transform vanishes and the phase is 0 for every input (the port dropped the factor `1j` and the final inverse transform of the original); then C102. Refuted for every length >= 2 by the unit impulse |
| C120 | `QcvxOracle` and `cuttingPlaneOptim` in `Fl R` | the oracle's answers in rounded arithmetic cut off no clearly better point and its level drops by at most a rounding (`Lib/QcvxFl`); the optimizer theorem with drift; a disc of clearly better points exists below the optimum by continuity; closeness to the maximiser from ln s - s^2 being strongly concave |
| C121 | `Portfolio` (`Model/TestOracles`), `cutting_plane_optim` and `Ell` over `Fl R` | running error bounds of nested summation loops (`SumErr`: value, roundings so far, sum of absolute terms); a returned point was accepted by the oracle (`optim_accepted`) |
| C122 | `bsearch` over `B64` | midpoint lemma: the rounded `(u - l) / 2` and its sum with `l` stay between the ends and within `2⁻⁵³ max(|l|, |u|) + 2⁻¹⁰⁷⁵` of the midpoint (`Lib/Bsearch64`); induction on the loop with the answers recorded |
| C123 | `conjugateGradient`, `powerIteration` and its three variants over `B64` and over `Fl bin53` (`Spec/Binary64Iter`: `CgSafe`, `PowSafe`, `Pow2Safe`, `Pow3Safe`, `Pow4Safe` follow the operations carried out) | C98_iterates and C117 describe the results in any arithmetic by textbook sequences; these are compared entry by entry by induction, the tests agree, so the methods end at the same iterate; C98_true_residual and C97_eigenvalue_near are transferred |
| C124 | the three LMI oracles over `B64` and over `Fl bin53` (`Spec/Binary64Lmi`: `RowSafe`, `WitSafe`, `QuadSafe`, `LdlSafe` follow the operations carried out) | the table left by the factorisation in any arithmetic satisfies the recurrences `BlkG`; the two tables are compared entry by entry by induction over rows and columns, so the same pivot is the first rejected; witness by induction from the bottom, quadratic forms by induction over the running sum; runs by C109_feas and C82_lmi_run |
| C125 | `EllStable` over any scalar type; over `B64` and `Fl bin53` (`Spec/StableRun64`: `IsFwd`, `IsBwd`, `UpdateSafe`, `FactorSafe` follow the operations carried out) | invariants of the five loops of `update_core` in any arithmetic (`Lib/StableGeneric`); the two substitutions are compared by induction over the rows, the running sums and factors entry by entry, the loops by induction over the iterations |
| C126 | the two oracles over `B64` and `Fl bin53` (`Spec/Oracles64`: `Safe` lists the operations of one query) | the round-robin loops and the search for the smallest margin are compared step by step; the runs follow with C109 and C125 from the bounds of C88 and C93 for rounded arithmetic |
| C127 | `MaxcutOracle` over `B64` (`Spec/Maxcut64`: `side64` says on which side IEEE comparison puts a vertex) | no partial sum can leave the range, whatever the number of terms, because a term below half a unit in the last place no longer changes the sum; the sums are then those of C94, the gradient is read off the loop in any arithmetic and doubling is exact |
| C128 | `ProfitOracle`, `ProfitRbOracle`, `ProfitOracleQ` over `B64` (`Spec/Profit64`) | a query is worked out in any arithmetic, so the run gives partial correctness with no range hypothesis; at the returned point, if of ordinary size, the computed profit equals the one rounded to 53 bits (`exp` and `ln` included) and C95's error bound applies; the discrete point: 53-bit rounding of an integer is an integer |
| C129 | `SvmOracle` over `B64` (`Spec/Svm64`) | loop invariant of the search with the order of `f64` (NaN apart, that of the extended reals); sums of any length stay in range as in C127, products with integers do not underflow, so the margins are those of C93 |
| C130 | `LowpassOracle` over `B64` (`Spec/Lowpass64`) | the three round-robin loops with an invariant on the recorded largest value in the order of `f64` (NaN apart, that of the extended reals); a run either panics at a centre where the oracle does, or hands back an accepted point; responses of ordinary filters are those of C88 |
| C131 | `Portfolio.assess` over any `Scalar` and over `B64` (`Spec/Portfolio64`) | the loops as running sums (`forRange_sumTo`, the double loop as one sum of n² terms); a run hands back a point at which the oracle reported an improvement; values of ordinary size are those of the rounded model (C121) |
| C132 | `QcvxOracle.assess` over any `Scalar` and over `B64` (`Spec/Quasicvx64`) | the round robin in any arithmetic (`rrLoop_test`); a run hands back a point at which the oracle reported an improvement; the sign of a computed difference of finite numbers is right even if it underflows (`gt_sub_false`) |
| C133 | `LMIOracle.assess`, `LMIOracle.assessOld`, `LMI0Oracle.assess` over any `Scalar` and over `B64` (`Spec/Lmi64`, `Spec/Lmi064`) | the factorisation as a table that the matrix determines (`LdlTable.unique`); a run hands back a point the oracle accepted; C124 and C82 at that point alone |

## Findings: where the code does not do what one would expect

Each is proved as a theorem about the model (names in MANIFEST.json) or follows from the cited lines.

1. `calc_bias_cut` with β < -τ/n (ell_calc.rs): σ exceeds 1 / ρ is negative, the "new ellipsoid" loses points that
   satisfy the cut (`C53_*`). `update_q` guards this range, `update_bias_cut` does not.
2. `calc_parallel_bias_cut`: with β0 β1 so negative that η < 0 the result is unsound; β0 ≤ β1 < -τ returns Success
   although the slab is empty; β1 ≥ τ with β0 < -τ returns NoSoln although every point satisfies the cut.
   The C16 theorem therefore assumes 0 ≤ β0 (deep first plane), which every oracle in the crate meets.
3. The documentation of `ParallelCut` states the opposite sign of the one used: code keeps
   `-β1 ≤ gᵀ(x-xc) ≤ -β0`. The specification (`Spec/Cuts.lean`) follows the code.
4. `bsearch` takes `&mut` bounds but never writes the bisected interval back (`C08`).
5. `factor_with_allow_semidefinite` accepts indefinite matrices: a zero pivot restarts the factorisation (`C32_*`).
6. `conjugate_gradient` returns an error when started at the exact solution (`C39_*`).
7. `power_iteration3` returns an unnormalised vector when the limit is reached (`C40_power3_not_unit`).
8. `Arr::rank_one_update` uses `rows` as row stride: only right for square matrices. `zeros(r,0)` is a vector, so
   `make_same_shape` loses the shape of matrices without columns (hence `0 < c` in C42).
9. LMI oracles: `factor` reads only the lower triangle of F, `sym_quad` reads both; for non-symmetric F the cut is
   not the gradient of the tested matrix. Symmetry is a hypothesis of C33–C36.
10. `SvmOracle` always reports an improvement, gamma is not monotone, and at a separating hyperplane the gradient is
    zero, so the next update divides 0/0 (NaN left in the caller's ellipsoid in f64); see C50/C63.
11. `ProfitOracleQ`'s alternative cut is shifted with the wrong sign (`C49_shift_sign_wrong`).
12. `EllStable` is not a numerically stable `Ell`: scratch values are re-read, the matrix stays diagonal, points are
    lost and a feasible problem can be declared infeasible (`C28_*`); for β = -τ/n it also divides by σ = 0.
13. The built-in low-pass case is infeasible (`C47_*`); an empty stopband panics in optimisation mode (`C46_*`).
14. `MaxcutOracle`'s gradient vanishes when all coordinates of the centre have the same sign, so from such a start the
    search is stuck (`C51_maxcut_stuck`), and its β has no geometric meaning.
15. In `f64`, `bsearch` can accept a probe and still return `false`: the probe may be rounded onto the upper end
    (`C71_bsearch_flag_converse_fails`). In exact arithmetic the flag is exact (C08).
16. `MyLmiOracle` (tests/lmi_tests.rs:160-166) lowers `gamma` to the cost of a point before the remaining constraints are
    tested (`C74_*`). On the test's own data the run stops after 11 iterations (the comment in the test blames numerical
    differences to the 281 of the Python version) with gamma = -3.75, while the returned point costs -2.66 (`FloatTests`).
17. The quadratic oracles in tests/ and benches/ return `beta = f(x)` for a non-improving point, which may cut off better
    points (`C73_cuts_off_better_points`). Most of these tests start with an ellipsoid that does not contain the minimiser
    (e.g. squared radius 10 around (5, 5)), so no convergence guarantee applies to them; the benchmark performs a single
    iteration (`C73_bench_stops_at_once`).
18. In `f64`, one central cut can make a positive definite shape matrix singular (`C71_posDef_lost`).
19. `PortfolioOracle` (examples/portfolio_optimization.rs:70) answers with a zero gradient at a feasible portfolio that is no
    improvement, so the run stops there, far from the optimum: in exact arithmetic the shipped example returns the zero
    portfolio (`C75_example_returns_zero`); in `f64` rounding noise lets it run for five iterations, to a return of 0.0223
    where 0.0262 is possible, and leaves NaN in the ellipsoid (`FloatTests`).
20. `power_iteration` started at the zero vector returns NaN without an error (`C76_power_zero_start`).
21. `Arr`: the tuple index `a[(i, j)]` does not check that `a` is a matrix (on a vector `i` is ignored), and a column index that
    is too large reads or writes the next row (`C43_tuple_index_on_vector`, `C43_column_overflow_aliases`).
22. A NaN is never noticed. `factor` tests `diag <= 0`, which is false for NaN, so the LMI oracles report a point made of NaN as
    feasible, and `cutting_plane_feas` then returns it, also for an infeasible LMI (`C81_lmi_run_reports_feasible`). The
    example, SVM and profit oracles accept it as an improvement (`C81_optim_answer_is_nan`). A zero gradient, which `SvmOracle`
    and `PortfolioOracle` produce (10, 19), puts NaN into a healthy ellipsoid (`C69_zero_gradient_undefined`).
23. `MyQuasicvxOracle` (tests/quasicvx2_tests.rs): the comment counts `x <= 0` as a violation of `x > 0`, the code tests
    `-x > 0.0`, so a point with `x = 0` goes on to the objective and gets the gradient `-0.5 / 0`. A run that starts at such a
    point returns a "best point" made of NaN (`C83_quasicvx2_zero_run`).
24. A parallel cut with both planes beyond the ellipsoid on the far side (`β0 ≤ β1 < -τ`) is satisfied by no point of it but is
    reported as `Success` (`C84_missed_parallel_cut_succeeds`); all other misses are reported as `NoSoln`.
25. `benches/ellipsoid.rs:36` minimises from `f64::NEG_INFINITY`: no value is below it, so the benchmark never finds a point
    (`C85_minimise_from_neg_inf`, `C85_benchmark_returns`).
26. In `f64` an accepted point may violate a constraint by a rounding error: `example1` accepts `(3, 2⁻⁶⁰)` although
    `x + y > 3` (`C86_exact_feasibility_fails`).
27. `EllStable` does not check the length of a gradient: entries beyond the dimension are ignored
    (`C87_stable_long_gradient_ignored`), where `Ell` panics.
28. In dimension one neither search space works: the strategy constant `n² / (n² - 1)` is `1/0`, so after one cut the size and
    after two cuts the centre are infinite or NaN (`C89_sequence`), and an easy interval problem is answered with NaN
    (`C89_interval_not_found`). The constructors accept such a centre; `ell1d.rs`, written for this case, is not compiled.
29. `tests/cutting_plane_tests.rs`: the comments of `MyOracleOptim` and `MyOracleOptimQ3` say "minimize x + y", their cuts
    maximise it. `MyOracleOptim` never updates `gamma`. The last cut of `MyOracleOptimQ3` is evaluated at the rounded point
    and applied at the unrounded one, and removes better grid points (`C91_q3_removes_better_points`). The tests only check
    that some point is returned.
30. `conjugate_gradient` tests the residual it carries along, not `b - A x`. In `f64` it answers `Ok` for `3 x = 1` with any
    positive tolerance although the true residual is `2^-54` (`C98_f64_below_tol_fails`); C37 holds in exact arithmetic only.
31. `cutting_plane_feas` is not invariant under scaling a constraint in `f64`: `g^T M g` underflows for small gradients, and a
    half-plane that covers part of the unit disc is declared infeasible (`C99_scaled_constraint_infeasible`); large gradients
    overflow and leave a centre made of NaN with status `Success` (`C99_huge_gradient`). C67 holds in exact arithmetic only.
32. `power_iteration` and `power_iteration2` square the entries without scaling: a starting vector of size `2^-538` gives
    an answer without finite numbers and `2^600 I` the eigenvalue 0 or NaN (`C100_power_tiny_start`, `C100_power_huge`).
    `bsearch` on an interval whose length overflows only ever asks the oracle about `+inf` (`C100_bsearch_overflow`).
33. `Ell1D::update_single` with gradient 0 and `beta = 0` drops the left half of the interval (`C101_zero_gradient`); no other
    update loses points (`C101_update_exact`).
34. An `EllipsoidError` that carries a NaN is not `==` to its own clone (`C106_clone_equal`), and a `NumericalInstability` with a value
    prints like one whose details end in that text (`C106_instability_ambiguous`).
35. `spectral_fact` (not compiled) lacks the imaginary unit before the inverse transform and the final inverse transform of the method it
    ports. Its phase is 0 for every input, and what it returns is `sqrt |R(w)|` at `n` frequencies (`C119_values`); it does not undo
    `inverse_spectral_fact` for any length >= 2 (`C119_not_inverse`).

## What is modelled

| Rust file | Lean model | remark |
|-----------|-----------|--------|
| src/arr.rs | Model/Arr | all functions the crate uses; `Display`, iterators and `Debug` not |
| src/cutting_plane.rs | Model/CuttingPlane | all functions, traits as structures |
| src/ell_calc.rs | Model/EllCalc | all functions |
| src/ell.rs, src/ell_stable.rs | Model/Ell, Model/EllStable | all constructors and updates |
| src/conjugate_gradient.rs, src/power_iteration.rs | Model/ConjGrad, Model/PowerIter | error strings dropped |
| src/quasicvx.rs, src/example1.rs, example1_rr.rs, example3.rs, example4.rs | Model/Quasicvx, Model/Examples, Model/RoundRobin | |
| src/oracles/ldlt_mgr.rs, lmi_oracle.rs, lmi_old_oracle.rs, lmi0_oracle.rs | Model/Ldlt, Model/Lmi | |
| tests/lmi_tests.rs, integration_test.rs, cutting_plane_tests.rs, regression_tests.rs, numerical_stability.rs, example2_tests.rs, quasicvx2_tests.rs; benches/ellipsoid.rs; examples/portfolio_optimization.rs | Model/CpTests, Model/TestOracles | the oracles they define |
| src/ell1d.rs, /spectral_fact.rs | Model/Ell1D, Model/SpectralFact, Model/SpectralFactFft | not part of the crate (not declared in `lib.rs`); `spectral_fact` over exact real and complex numbers only, with the exact discrete Fourier transform |
| src/error.rs | Model/Error | `Display`, `PartialEq`, `Clone`; no function of the crate returns the type |
| src/oracles/lowpass_oracle.rs, profit_oracle.rs, svm_oracle.rs, maxcut_oracle.rs | Model/Lowpass, Profit, Svm, Maxcut | |

## Not modelled

Rounding error of `f64` except where a claim says so (C71, C82, C90 and later), overflow and underflow of `f64` except in C99, C100, C109 and C122-C133, integer overflow, memory, logging output (`logging.rs`), `Debug`, error message strings of
the numerical routines; `conceptual.rs` (not part of the crate, does not compile);
`main.rs`; the drivers in `benches/` and `tests/` (their oracles are modelled, see above).

## Trusted base

Lean 4.33.0 kernel; axioms `propext`, `Classical.choice`, `Quot.sound` at most (checked with
`#print axioms`); the reading of the Rust source that the model's comments document.
