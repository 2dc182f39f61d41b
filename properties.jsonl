{"id": "C01", "title": "cutting_plane_feas: complete characterisation of the outcome", "statement": "cutting_plane_feas returns (Some(x), k) exactly when the first k queries each produced a cut whose update was Success with tsq not below the tolerance, and the (k+1)-th query, at the then-current centre x, was accepted by the oracle; it returns (None, k) with k < max_iters exactly when the k-th update (0-based) was not Success or left tsq below the tolerance; it returns (None, max_iters) exactly when all max_iters iterations went through without either. On Some(x) the search space is left at centre x.", "quantifier": "every oracle (stateful, any answers), every search space implementation, every Options, every scalar arithmetic (including NaN)", "why_tests_cant": "quantifies over all user-written oracles and spaces and over all histories of answers", "anchors": ["src/cutting_plane.rs:cutting_plane_feas"]}
{"id": "C02", "title": "Iteration counters never exceed max_iters and count oracle calls exactly", "statement": "For cutting_plane_feas, cutting_plane_optim and cutting_plane_optim_q the returned count k satisfies k <= max_iters, and the oracle has been queried k+1 times if the loop stopped early (k < max_iters, or a stop in the last iteration) and max_iters times otherwise; with max_iters = 0 the oracle is never called and the result is (None, 0).", "quantifier": "every oracle, space, Options and history", "why_tests_cant": "a test fixes one oracle history", "anchors": ["src/cutting_plane.rs:cutting_plane_feas", "src/cutting_plane.rs:cutting_plane_optim", "src/cutting_plane.rs:cutting_plane_optim_q"]}
{"id": "C03", "title": "cutting_plane_optim returns the last improving point and the gamma that goes with it", "statement": "The returned x_best is the centre at the most recent query for which the oracle reported an improvement (None iff it never did), and, for any oracle that changes gamma only when it reports an improvement, the caller's gamma on return is the value the oracle wrote at that same query. A central cut is applied exactly after improving queries and a bias cut exactly after the others.", "quantifier": "every oracle, space, Options and history", "why_tests_cant": "pairing of x_best with gamma must hold for all interleavings of improving and non-improving answers", "anchors": ["src/cutting_plane.rs:cutting_plane_optim"]}
{"id": "C04", "title": "cutting_plane_optim_q retry protocol", "statement": "The oracle is called with retry = true exactly when the immediately preceding update returned NoEffect (or when the preceding updates since then returned Unknown and no improvement was reported); the first call has retry = false; the loop stops on NoSoln, on NoEffect without a further alternative, or when tsq drops below the tolerance; x_best is the discrete point supplied by the last improving answer.", "quantifier": "every oracle, space, Options and history", "why_tests_cant": "stateful protocol over arbitrary answer sequences", "anchors": ["src/cutting_plane.rs:cutting_plane_optim_q"]}
{"id": "C05", "title": "BSearchAdaptor probes do not disturb the stored search space", "statement": "assess_bs(gamma) sets the oracle's level to gamma before the first query, runs the feasibility loop on a copy, and returns true iff that run found a point; on true the stored space is the old one with only the centre replaced by the point found, on false it is unchanged.", "quantifier": "every oracle, cloneable space, Options, gamma", "why_tests_cant": "aliasing/copy discipline over all histories", "anchors": ["src/cutting_plane.rs:BSearchAdaptor::assess_bs"]}
{"id": "C06", "title": "bsearch bisects correctly for a monotone predicate", "statement": "For lower <= upper and a predicate that is monotone in gamma (once accepted, every larger gamma is accepted) with the threshold inside the interval, after every probe the internal interval still brackets the threshold, its width is the initial width divided by 2^k, and each probe is the exact midpoint. Panics iff lower > upper.", "quantifier": "all intervals, monotone predicates, tolerances, iteration limits (exact arithmetic)", "why_tests_cant": "all thresholds and all interval widths", "anchors": ["src/cutting_plane.rs:bsearch"]}
{"id": "C07", "title": "bsearch iteration count is exactly logarithmic", "statement": "bsearch returns the least k with (upper-lower)/2^(k+1) < tolerance, capped at max_iters, independently of the oracle's answers.", "quantifier": "all oracles, intervals, tolerances, limits (exact arithmetic)", "why_tests_cant": "unbounded family of widths/tolerances", "anchors": ["src/cutting_plane.rs:bsearch"]}
{"id": "C08", "title": "bsearch's flag means 'some probe was accepted', and the caller's interval is never updated", "statement": "When lower < upper, the returned flag is true iff the oracle accepted at least one probe. The interval passed by &mut is left unchanged by bsearch (the bisected bounds are not written back).", "quantifier": "all oracles, intervals, options", "why_tests_cant": "all answer histories", "anchors": ["src/cutting_plane.rs:bsearch"]}
{"id": "C09", "title": "A rejected cut leaves the ellipsoid untouched", "statement": "If an Ell (or EllStable) update returns a status other than Success, the centre and kappa (and for Ell the shape matrix) are bit-for-bit unchanged; only tsq is refreshed.", "quantifier": "every ellipsoid, gradient, cut, cut kind, any scalar arithmetic including NaN", "why_tests_cant": "all numeric inputs", "anchors": ["src/ell.rs:Ell::update_core", "src/ell_stable.rs:EllStable::update_core"]}
{"id": "C10", "title": "The shape matrix stays exactly symmetric", "statement": "After every successful Ell update mq is exactly symmetric (bit-for-bit, even in floating point), whatever its prior content; hence after any sequence of updates of an initially symmetric mq it is symmetric.", "quantifier": "every ellipsoid of any dimension, every cut sequence, any scalar arithmetic", "why_tests_cant": "floating point symmetry for all dimensions and histories", "anchors": ["src/ell.rs:Ell::update_core"]}
{"id": "C11", "title": "No panic and shape preservation for well-shaped input", "statement": "For an Ell whose mq is n x n (n >= 1) and xc has length n, any finite sequence of bias/central/q updates with length-n gradients never panics and keeps mq n x n and xc of length n; a gradient of a different length panics before anything is modified.", "quantifier": "all n, all cut sequences, any scalar arithmetic", "why_tests_cant": "all shapes and sequences", "anchors": ["src/ell.rs:Ell::update_core", "src/arr.rs:Arr::dot_mv"]}
{"id": "C12", "title": "The update is the documented rank-one formula", "statement": "On Success: xc' = xc - (rho/omega) M g, M' = M - (sigma/omega)(M g)(M g)^T, kappa' = delta*kappa, with omega = g^T M g, tsq = kappa*omega and (rho, sigma, delta) those of the cut strategy.", "quantifier": "all dimensions, symmetric M, gradients, strategies (exact arithmetic)", "why_tests_cant": "the loop implementation must equal the matrix formula for every size", "anchors": ["src/ell.rs:Ell::update_core"]}
{"id": "C13", "title": "Positive definiteness is preserved", "statement": "If M is symmetric positive definite and kappa > 0, then after any successful update by a nonzero gradient with a central cut, a bias cut -tau < beta < tau, or a parallel cut beta0 < beta1 that intersects the ellipsoid non-degenerately, M' is positive definite and kappa' > 0 (n >= 2); hence so it is after any sequence of such updates.", "quantifier": "all n >= 2, all ellipsoids, all cut sequences (exact arithmetic)", "why_tests_cant": "invariant over unbounded histories", "anchors": ["src/ell.rs:Ell::update_core", "src/ell_calc.rs:EllCalc"]}
{"id": "C14", "title": "Central cut keeps the half-ellipsoid", "statement": "After update_central_cut with gradient g, every x of the old ellipsoid with g^T(x-xc) <= 0 lies in the new ellipsoid.", "quantifier": "all n >= 2, ellipsoids, g != 0, points x (exact arithmetic)", "why_tests_cant": "all points of all ellipsoids", "anchors": ["src/ell.rs:Ell", "src/ell_calc.rs:calc_central_cut"]}
{"id": "C15", "title": "Deep (bias) cut keeps every point satisfying the cut", "statement": "After a successful update_bias_cut with SingleCut(beta), -tau/n <= beta < tau, every x of the old ellipsoid with g^T(x-xc)+beta <= 0 lies in the new ellipsoid.", "quantifier": "all n >= 2, ellipsoids, g != 0, beta in range, points x (exact arithmetic)", "why_tests_cant": "all points of all ellipsoids", "anchors": ["src/ell.rs:Ell", "src/ell_calc.rs:calc_bias_cut"]}
{"id": "C16", "title": "Parallel cut keeps every point between the two planes", "statement": "update_bias_cut with ParallelCut(beta0, Some(beta1)) whose slab meets the interior of the ellipsoid (beta0 < tau, -tau < beta1), with beta0 < beta1 and tau^2 + n beta0 beta1 >= 0 (e.g. beta0 >= 0), succeeds, and every x of the old ellipsoid with -beta1 <= g^T(x-xc) <= -beta0 lies in the new ellipsoid.", "quantifier": "all n >= 2, ellipsoids, g, admissible beta0, beta1, points (exact arithmetic)", "why_tests_cant": "all points of all ellipsoids", "anchors": ["src/ell.rs:Ell", "src/ell_calc.rs:calc_parallel_bias_cut", "src/ell_calc.rs:calc_parallel_bias_cut_fast"]}
{"id": "C17", "title": "Parallel central cut keeps every point between the two planes", "statement": "After a successful update_central_cut with ParallelCut(_, Some(beta1)), beta1 > 0, every x of the old ellipsoid with -beta1 <= g^T(x-xc) <= 0 lies in the new ellipsoid.", "quantifier": "all n >= 2, ellipsoids, g, beta1, points (exact arithmetic)", "why_tests_cant": "all points of all ellipsoids", "anchors": ["src/ell.rs:Ell", "src/ell_calc.rs:calc_parallel_central_cut"]}
{"id": "C18", "title": "NoSoln is sound", "statement": "If update_bias_cut / update_central_cut / update_q reports NoSoln, then no point of the current ellipsoid satisfies the cut (single: g^T(x-xc)+beta <= 0; parallel: additionally g^T(x-xc)+beta1 >= 0). For update_bias_cut this needs the lower bound to be at least -tau, in particular it holds for every beta >= 0; for update_q no condition is needed.", "quantifier": "all n, ellipsoids, g, cuts (exact arithmetic)", "why_tests_cant": "a universal emptiness claim", "anchors": ["src/ell_calc.rs:calc_bias_cut", "src/ell_calc.rs:calc_bias_cut_q", "src/ell_calc.rs:calc_parallel_bias_cut"]}
{"id": "C19", "title": "Quantised updates are sound for every beta", "statement": "update_q with SingleCut(beta): for every real beta with beta != tau, NoSoln implies the cut is empty on the ellipsoid, NoEffect leaves the ellipsoid unchanged, and Success keeps every point satisfying the cut - no sign condition on beta is needed.", "quantifier": "all n >= 2, ellipsoids, g != 0, all beta (exact arithmetic)", "why_tests_cant": "all shallow and deep cuts", "anchors": ["src/ell_calc.rs:calc_bias_cut_q", "src/ell_calc.rs:calc_parallel_q"]}
{"id": "C20", "title": "Every cut shrinks the volume at the ellipsoid-method rate", "statement": "For beta >= 0 (central, deep or parallel cuts) each successful update multiplies det(kappa M) - the squared volume up to a constant - by at most exp(-1/(n+1)); after k updates by at most exp(-k/(n+1)).", "quantifier": "all n >= 2, ellipsoids, cut sequences of any length (exact arithmetic)", "why_tests_cant": "rate for all dimensions and histories", "anchors": ["src/ell.rs:Ell", "src/ell_calc.rs:EllCalc"]}
{"id": "C21", "title": "no_defer_trick does not change behaviour", "statement": "Running the same sequence of cuts with no_defer_trick on and off gives the same statuses, centres, tsq values and the same ellipsoid kappa*M after every step.", "quantifier": "all ellipsoids and all cut sequences (exact arithmetic)", "why_tests_cant": "bisimulation over unbounded histories", "anchors": ["src/ell.rs:Ell::update_core"]}
{"id": "C22", "title": "Feasibility loop finds a point of any fat feasible set (convergence theorem)", "statement": "Let the oracle return only valid separating cuts with beta >= 0 and ||g|| >= G > 0 for a set K that contains a ball of radius r inside the initial ellipsoid. If tolerance <= r^2 G^2 and max_iters > (n+1) ln(det(kappa0 M0)/r^(2n)), then cutting_plane_feas on Ell returns Some(x) with x accepted by the oracle.", "quantifier": "all n >= 2, all such oracles, sets, ellipsoids and options (exact arithmetic)", "why_tests_cant": "total correctness over all problems", "anchors": ["src/cutting_plane.rs:cutting_plane_feas", "src/ell.rs:Ell"]}
{"id": "C23", "title": "A None from cutting_plane_feas before max_iters certifies infeasibility (zero tolerance)", "statement": "With valid cuts (beta >= 0, nonzero gradient, the two planes of a parallel cut distinct), an oracle that does not reject feasible points, and tolerance <= 0: if cutting_plane_feas on Ell returns (None, k) with k < max_iters, the initial ellipsoid contains no feasible point (also when a cut only touched the ellipsoid).", "quantifier": "all n >= 2, oracles, ellipsoids (exact arithmetic)", "why_tests_cant": "universal emptiness over all runs", "anchors": ["src/cutting_plane.rs:cutting_plane_feas", "src/ell.rs:Ell"]}
{"id": "C24", "title": "Optimisation loop never discards a better point", "statement": "With an oracle whose cuts are valid for all points better than the current gamma, every point of the initial ellipsoid that is strictly better than the final gamma is still in the final ellipsoid (which after a cut that only touched the ellipsoid is a single point, the final centre); with tolerance <= 0 any stop before max_iters certifies that no point of the initial ellipsoid beats the returned gamma.", "quantifier": "all n >= 2, oracles, histories (exact arithmetic)", "why_tests_cant": "universal over points and runs", "anchors": ["src/cutting_plane.rs:cutting_plane_optim", "src/ell.rs:Ell"]}
{"id": "C25", "title": "Optimisation loop converges to any achievable fat level", "statement": "If the set of points at least as good as level g* contains a ball of radius r in the initial ellipsoid, the oracle's cuts are valid with gradients of norm >= G, max_iters > (n+1) ln(det(kappa0 M0)/r^(2n)) and tolerance <= r^2 G^2, then on return gamma is better than (or as good as) g*.", "quantifier": "all n >= 2, oracles, levels (exact arithmetic)", "why_tests_cant": "total correctness over all problems", "anchors": ["src/cutting_plane.rs:cutting_plane_optim", "src/ell.rs:Ell"]}
{"id": "C26", "title": "ParallelCut(beta, None) behaves exactly as SingleCut(beta)", "statement": "For all three update kinds and both ellipsoid classes, ParallelCut(b, None) and SingleCut(b) give the identical status and identical next state; with use_parallel_cut = false (or beta1 >= tau), ParallelCut(b0, Some(b1)) with b0 <= b1 gives the single-cut result.", "quantifier": "all states, gradients, cuts, any scalar arithmetic", "why_tests_cant": "all numeric inputs", "anchors": ["src/ell_calc.rs:calc_single_or_parallel_bias_cut", "src/ell.rs:CutType"]}
{"id": "C27", "title": "The fast and the reference parallel-cut formulas agree", "statement": "calc_parallel_bias_cut_fast and calc_parallel_bias_cut_fast_old return the same (rho, sigma, delta) whenever tau > |beta0|,|beta1|, beta0 < beta1, eta > 0; calc_parallel_central_cut(beta1) = calc_parallel_bias_cut(0, beta1); calc_central_cut = calc_bias_cut(0); and at beta1 = tau the parallel formula equals the single deep cut.", "quantifier": "all n >= 2, tau, beta0, beta1 (exact arithmetic)", "why_tests_cant": "algebraic identity over a continuum", "anchors": ["src/ell_calc.rs:calc_parallel_bias_cut_fast", "src/ell_calc.rs:calc_parallel_bias_cut_fast_old", "src/ell_calc.rs:calc_parallel_central_cut"]}
{"id": "C28", "title": "EllStable is equivalent to Ell", "statement": "Starting from the same diagonal shape, EllStable and Ell return the same statuses, centres, tsq and kappa for every sequence of cuts, and EllStable's ellipsoid contains every point the cut keeps.", "quantifier": "all cut sequences", "why_tests_cant": "bisimulation over unbounded histories", "anchors": ["src/ell_stable.rs:EllStable::update_core", "src/ell.rs:Ell::update_core"]}
{"id": "C29", "title": "LDLT factorisation decides positive definiteness", "statement": "LDLTMgr::factor / factorize return true iff the symmetric matrix given by the lower triangle of the argument is positive definite, regardless of what the manager was used for before.", "quantifier": "all dimensions, all matrices, all prior manager states (exact arithmetic)", "why_tests_cant": "all matrices", "anchors": ["src/oracles/ldlt_mgr.rs:LDLTMgr::factor", "src/oracles/ldlt_mgr.rs:LDLTMgr::factorize"]}
{"id": "C30", "title": "LDLT sqrt is an upper-triangular square root", "statement": "After a successful factor of A, sqrt() returns upper triangular R with R^T R = A and positive diagonal; it panics if factor failed.", "quantifier": "all dimensions and matrices (exact arithmetic)", "why_tests_cant": "all matrices", "anchors": ["src/oracles/ldlt_mgr.rs:LDLTMgr::sqrt"]}
{"id": "C31", "title": "LDLT witness certifies non-definiteness", "statement": "After a failed factor of symmetric A, witness() returns ep >= 0 and leaves v, supported on rows start..stop with v[stop-1] = 1, such that v^T A v = -ep; sym_quad(F) then equals v^T F v for every F. witness() panics if the matrix was positive definite.", "quantifier": "all dimensions, matrices, prior states (exact arithmetic)", "why_tests_cant": "all matrices and stale-state histories", "anchors": ["src/oracles/ldlt_mgr.rs:LDLTMgr::witness", "src/oracles/ldlt_mgr.rs:LDLTMgr::sym_quad"]}
{"id": "C32", "title": "Semidefinite factorisation", "statement": "factor_with_allow_semidefinite returns true iff the matrix is positive semidefinite; when it returns false witness() gives v with v^T A v = -ep < 0.", "quantifier": "all dimensions and matrices (exact arithmetic)", "why_tests_cant": "all matrices", "anchors": ["src/oracles/ldlt_mgr.rs:LDLTMgr::factor_with_allow_semidefinite"]}
{"id": "C33", "title": "LMI oracle is exact and its cuts are valid", "statement": "LMIOracle::assess_feas(x) returns None iff B - sum x_k F_k is positive definite; otherwise it returns (g, ep) with ep >= 0 such that every y with B - sum y_k F_k positive semidefinite satisfies g^T(y-x)+ep <= 0.", "quantifier": "all sizes, symmetric F_k and B, points, prior oracle states (exact arithmetic)", "why_tests_cant": "all LMIs and all points", "anchors": ["src/oracles/lmi_oracle.rs:LMIOracle::assess_feas"]}
{"id": "C34", "title": "LMIOldOracle and LMIOracle are interchangeable", "statement": "On the same problem and the same history both oracles return identical answers on every query, bit for bit.", "quantifier": "all sizes, data, query sequences, any scalar arithmetic", "why_tests_cant": "all histories", "anchors": ["src/oracles/lmi_oracle.rs", "src/oracles/lmi_old_oracle.rs"]}
{"id": "C35", "title": "LMI0 oracle is exact and its cuts are valid", "statement": "LMI0Oracle::assess_feas(x) returns None iff sum x_k F_k is positive definite; otherwise (g, ep) with ep >= 0 and g^T(y-x)+ep <= 0 for every y with sum y_k F_k positive semidefinite.", "quantifier": "all sizes, symmetric F_k, points, prior states (exact arithmetic)", "why_tests_cant": "all LMIs and all points", "anchors": ["src/oracles/lmi0_oracle.rs:LMI0Oracle::assess_feas"]}
{"id": "C36", "title": "Solving an LMI end to end", "statement": "If the LMI B - sum x_k F_k > 0 has a ball of solutions in the initial ellipsoid, cutting_plane_feas with LMIOracle and Ell returns a point whose LMI matrix is positive definite, given enough iterations and a small enough tolerance.", "quantifier": "all LMIs of all sizes (exact arithmetic)", "why_tests_cant": "total correctness over all problems", "anchors": ["src/cutting_plane.rs:cutting_plane_feas", "src/oracles/lmi_oracle.rs", "src/ell.rs"]}
{"id": "C37", "title": "Conjugate gradient: Ok(x) means a small true residual", "statement": "If conjugate_gradient(A, b, x0, tol, m) returns Ok(x) then ||b - A x|| < tol.", "quantifier": "all A, b, x0, tol, m of matching shapes (exact arithmetic)", "why_tests_cant": "all systems", "anchors": ["src/conjugate_gradient.rs:conjugate_gradient"]}
{"id": "C38", "title": "Conjugate gradient converges in at most n steps on SPD systems", "statement": "For symmetric positive definite A of size n, tol > 0, max_iter >= n and an x0 that is not already exact, the result is Ok.", "quantifier": "all SPD systems (exact arithmetic)", "why_tests_cant": "all systems and sizes", "anchors": ["src/conjugate_gradient.rs:conjugate_gradient"]}
{"id": "C39", "title": "Conjugate gradient accepts an exact starting point", "statement": "If A x0 = b (for instance b = 0 and no initial guess) conjugate_gradient returns Ok(x0).", "quantifier": "all A, b, x0 with A x0 = b", "why_tests_cant": "all systems", "anchors": ["src/conjugate_gradient.rs:conjugate_gradient"]}
{"id": "C40", "title": "Power iteration returns a unit vector and its Rayleigh quotient", "statement": "For power_iteration, power_iteration2, power_iteration4 with A x != 0 along the run, the vector left in x has Euclidean norm 1 and the returned value is x^T A x; for symmetric A it lies between the smallest and largest eigenvalue; the returned count is at most max_iters.", "quantifier": "all sizes, matrices, starting vectors, options (exact arithmetic)", "why_tests_cant": "all matrices and histories", "anchors": ["src/power_iteration.rs"]}
{"id": "C41", "title": "Power iteration stop criterion bounds the eigen-residual", "statement": "If power_iteration returns niter < max_iters then there is a unit vector x1 within tol (1-norm, up to sign) of the result x with A x1 = ||A x1|| x, so ||A x1 -/+ ||A x1|| x1||_1 <= ||A x1|| tol; started at an eigenvector it stops at the first iteration with the exact eigenvalue.", "quantifier": "all matrices, starts, options (exact arithmetic)", "why_tests_cant": "all matrices", "anchors": ["src/power_iteration.rs:power_iteration"]}
{"id": "C42", "title": "Arr linear algebra agrees with the mathematical operations for every shape", "statement": "dot_mv, dot, outer, rank_one_update, element-wise and scalar operations compute M x, x^T y, x y^T, M + alpha u u^T (symmetric M), etc., for well-shaped input, and keep the shape; eye/from_diag/full/from_fn have the stated entries.", "quantifier": "all shapes and contents (sums in exact arithmetic, everything else in any scalar arithmetic)", "why_tests_cant": "all sizes", "anchors": ["src/arr.rs"]}
{"id": "C43", "title": "Arr element access: get-after-set and no aliasing between cells", "statement": "In an r x c matrix, set(i,j,v) then get(i',j') returns v iff (i',j') = (i,j) and the old value otherwise, for in-range indices; row(i) is the i-th row; out-of-range flat indices panic; two-index get/set and row on a vector panic; the tuple index agrees with get/set on matrices.", "quantifier": "all shapes, indices, values, any scalar arithmetic", "why_tests_cant": "all sizes and index pairs", "anchors": ["src/arr.rs:Arr::get", "src/arr.rs:Arr::set", "src/arr.rs:Arr::row"]}
{"id": "C44", "title": "linspace and arange produce the documented grids", "statement": "linspace(a,b,n) has length n, starts at a, ends at b (n>=2) with equal spacing; arange(a,b) has floor(b-a) elements a, a+1, ... all < b, and is empty when b <= a.", "quantifier": "all a, b, n (exact arithmetic)", "why_tests_cant": "all inputs", "anchors": ["src/arr.rs:linspace", "src/arr.rs:arange"]}
{"id": "C45", "title": "Lowpass oracle: acceptance means every constraint holds, from any internal position", "statement": "LowpassOracle::assess_feas(x) returns None iff all passband, stopband and transition constraints and x[0] >= 0 hold, whatever the round-robin indices left by earlier queries; the indices stay in range forever.", "quantifier": "all filter sizes, specs, query histories, points", "why_tests_cant": "depends on hidden cyclic state after arbitrary histories", "anchors": ["src/oracles/lowpass_oracle.rs:LowpassOracle::assess_feas"]}
{"id": "C46", "title": "Lowpass oracle cuts are valid", "statement": "Each cut (g, ParallelCut(b0,b1)) it returns at x is violated (b0 > 0) and satisfied by every feasible filter y: g^T(y-x)+b0 <= 0 and g^T(y-x)+b1 >= 0 when b1 is present; in optimisation mode on improvement gamma becomes the largest stopband value at x and every y with smaller maximum satisfies the cut.", "quantifier": "all sizes, specs, histories, points (exact arithmetic)", "why_tests_cant": "all points", "anchors": ["src/oracles/lowpass_oracle.rs"]}
{"id": "C47", "title": "The built-in lowpass test case is solvable", "statement": "create_lowpass_case(n) yields a feasible specification (lower passband bound <= upper passband bound).", "quantifier": "all n >= 1", "why_tests_cant": "concerns every candidate filter", "anchors": ["src/oracles/lowpass_oracle.rs:create_lowpass_case"]}
{"id": "C48", "title": "Profit oracle: cuts are valid and gamma is the profit of the improving point", "statement": "With positive parameters and gamma >= 0, a non-improving answer (g, beta > 0) of ProfitOracle at y satisfies g^T(z-y)+beta <= 0 for every z within the limit and with profit >= gamma; an improving answer sets gamma to the profit at y (>= old gamma) and its central cut keeps every z with profit >= the new gamma; acceptance is independent of the round-robin index.", "quantifier": "all positive parameters, query points, gamma >= 0, histories (exact arithmetic)", "why_tests_cant": "all points and histories", "anchors": ["src/oracles/profit_oracle.rs:ProfitOracle"]}
{"id": "C49", "title": "Discrete profit oracle proposes integer points", "statement": "ProfitOracleQ's improving answers return ln of an integer vector with all components >= 1, and the returned cut at y is the cut at that discrete point re-expressed at y.", "quantifier": "all positive parameters, query points, gamma >= 0, histories (exact arithmetic)", "why_tests_cant": "all points", "anchors": ["src/oracles/profit_oracle.rs:ProfitOracleQ"]}
{"id": "C50", "title": "SVM oracle: value, stop condition and cut validity", "statement": "assess_optim at (w,b) sets gamma to the minimum margin (or 0 when all margins are >= 1), always reports improvement, and its (central) cut keeps every (w',b') for which all margins are >= 1.", "quantifier": "all data sets, labels, points (exact arithmetic)", "why_tests_cant": "all points", "anchors": ["src/oracles/svm_oracle.rs"]}
{"id": "C51", "title": "Maxcut oracle: gamma is the best cut seen", "statement": "Over any sequence of queries gamma equals the maximum of its initial value and the cut weights of the sign vectors queried, improvement is reported exactly when the query strictly beats gamma, and the reported weight equals the weight of the edges crossing the sign partition.", "quantifier": "all weight matrices, query histories", "why_tests_cant": "all histories", "anchors": ["src/oracles/maxcut_oracle.rs"]}
{"id": "C52", "title": "Quasiconvex example oracle: cuts are valid", "statement": "For gamma >= 0 each non-improving answer of quasicvx::MyOracle at x is violated and keeps every feasible point with objective >= gamma; an improving answer sets gamma to the objective at x and its central cut keeps every feasible point with objective >= the new gamma.", "quantifier": "all points, histories, gamma >= 0 (exact arithmetic)", "why_tests_cant": "all points and histories", "anchors": ["src/quasicvx.rs:MyOracle"]}
{"id": "C53", "title": "Shallow bias cuts are handled safely", "statement": "update_bias_cut with a shallow cut (-tau <= beta < -tau/n) keeps every point satisfying the cut, and a cut that does not intersect the ellipsoid from the inactive side (beta < -tau) is reported as having no effect.", "quantifier": "all n >= 2, ellipsoids, negative beta", "why_tests_cant": "all points", "anchors": ["src/ell_calc.rs:calc_bias_cut", "src/ell_calc.rs:calc_parallel_bias_cut"]}
{"id": "C54", "title": "Conjugate gradient never returns a worse point", "statement": "On a symmetric positive definite system A x* = b, whenever conjugate_gradient returns Ok(x), x is strictly closer to x* in the energy norm v^T A v than the starting point.", "quantifier": "all n >= 1, positive definite A, b, starting points, tol > 0, max_iter (exact arithmetic)", "why_tests_cant": "all systems and starting points", "anchors": ["src/conjugate_gradient.rs:conjugate_gradient"]}
{"id": "C55", "title": "Power iteration stops when one eigenvalue dominates", "statement": "For symmetric A with a nonzero eigenvalue that strictly dominates the others in absolute value, and a start with a component along its eigenvector, power_iteration with tolerance > 0 meets its stop criterion: some bound N exists such that for every max_iters > N the call returns after at most N iterations.", "quantifier": "all sizes, symmetric matrices with a dominant eigenvalue, starts, tolerances > 0, iteration limits (exact arithmetic)", "why_tests_cant": "termination for all inputs", "anchors": ["src/power_iteration.rs:power_iteration"]}
{"id": "C56", "title": "The optimisation loop is epsilon-optimal", "statement": "Let an oracle correctly describe 'maximise f over F' (each answer improves exactly at feasible points at least as good as gamma, its cut keeps every point at least as good as the new value) with F convex with nonempty interior, f continuous at a maximiser lying in the interior of the initial ellipsoid. Then for every eps > 0 there are an iteration count and a tolerance such that cutting_plane_optim, run with at least that many iterations and at most that tolerance, returns normally with a value within eps of the maximum and never above it, and the returned point is feasible and attains the returned value.", "quantifier": "all dimensions, oracles meeting the contract, valid ellipsoids, starting values, eps > 0 (exact arithmetic)", "why_tests_cant": "quantifies over all oracles and accuracies; convergence is a limit statement", "anchors": ["src/cutting_plane.rs:cutting_plane_optim", "src/ell.rs:Ell"]}
{"id": "C57", "title": "The quasiconvex example is solved to any accuracy", "statement": "Running cutting_plane_optim with quasicvx::MyOracle from any gamma in [0, gamma*] and any ellipsoid with the maximiser (1/sqrt 2, 1/2) in its interior returns, for enough iterations and small enough tolerance, a value within eps of gamma* = exp(-1/2)/sqrt 2 and never above it, attained by a feasible point.", "quantifier": "all initial ellipsoids containing the maximiser, oracle positions, gamma, eps > 0 (exact arithmetic)", "why_tests_cant": "all starts and accuracies", "anchors": ["src/quasicvx.rs:MyOracle", "src/cutting_plane.rs:cutting_plane_optim"]}
{"id": "C58", "title": "Linear example oracles answer correctly", "statement": "example1, example1_rr and example4 oracles: improvement is reported exactly at feasible points at least as good as gamma, the new gamma is the objective there, and every returned cut is violated at the query (or central when improving) and keeps every feasible point at least as good as the new gamma; the round-robin and plain versions of example1 give the same verdict and value at every query. example3's feasibility oracle accepts exactly the points of its polyhedron and its cuts keep all of them.", "quantifier": "all query points, gamma, round-robin positions (exact arithmetic)", "why_tests_cant": "all points and histories", "anchors": ["src/example1.rs:MyOracle", "src/example1_rr.rs:MyOracle", "src/example3.rs:MyOracle3", "src/example4.rs:MyOracle"]}
{"id": "C59", "title": "The linear examples are solved to any accuracy", "statement": "cutting_plane_optim with the example1, example1_rr and example4 oracles returns values within eps of the true maxima (3, 3 and 12) and never above them, from every ellipsoid with an optimal point in its interior, for enough iterations and small enough tolerance.", "quantifier": "all initial ellipsoids around an optimum, oracle positions, gamma, eps > 0 (exact arithmetic)", "why_tests_cant": "all starts and accuracies", "anchors": ["src/example1.rs:MyOracle", "src/example1_rr.rs:MyOracle", "src/example4.rs:MyOracle", "src/cutting_plane.rs:cutting_plane_optim"]}
{"id": "C60", "title": "Robust profit oracle is correct for the guaranteed profit", "statement": "ProfitRbOracle answers every query correctly for the worst-case problem: improvement is reported exactly when the point is feasible under the worst prices and the guaranteed profit is at least gamma, the new gamma is the guaranteed profit there, which is a lower bound of the profit under every parameter choice within the uncertainty, and every cut keeps all points whose guaranteed profit is at least the new gamma.", "quantifier": "all positive parameters and uncertainties, query points, gamma >= 0 (exact arithmetic)", "why_tests_cant": "all parameters within a continuum of uncertainty, all points", "anchors": ["src/oracles/profit_oracle.rs:ProfitRbOracle"]}
{"id": "C61", "title": "Epsilon-optimality also when the objective flattens at its optimum", "statement": "For an oracle whose cuts are valid but whose gradients may vanish near the optimum, cutting_plane_optim still returns, for enough iterations and small enough tolerance, a value within eps of the optimum and never above it, attained by a feasible point.", "quantifier": "all oracles meeting the answer contract, initial ellipsoids containing an optimum in the interior, eps > 0 (exact arithmetic)", "why_tests_cant": "all oracles, all histories, all accuracies", "anchors": ["src/cutting_plane.rs:cutting_plane_optim", "src/ell.rs:Ell"]}
{"id": "C62", "title": "Profit maximisation is solved to any accuracy", "statement": "cutting_plane_optim with ProfitOracle (and with ProfitRbOracle for the guaranteed profit) returns a value within eps of the maximal profit and never above it, attained by the returned feasible point (or the initial gamma, if no better point was met), from every ellipsoid with a maximiser in its interior and every initial gamma between 0 and the maximum, for enough iterations and small enough tolerance.", "quantifier": "all positive problem data, starting ellipsoids, initial gamma between 0 and the maximal profit, eps > 0 (exact arithmetic)", "why_tests_cant": "all problem data, starts and accuracies", "anchors": ["src/oracles/profit_oracle.rs:ProfitOracle", "src/oracles/profit_oracle.rs:ProfitRbOracle", "src/cutting_plane.rs:cutting_plane_optim"]}
{"id": "C63", "title": "The SVM oracle trains a separating classifier", "statement": "For separable data with nonzero labels, cutting_plane_optim with SvmOracle returns a classifier whose margins are all at least 1 and value 0, from every ellipsoid containing a ball of separating classifiers, for enough iterations and small enough positive tolerance.", "quantifier": "all data sets, dimensions, starts (exact arithmetic)", "why_tests_cant": "all data sets and starts", "anchors": ["src/oracles/svm_oracle.rs:SvmOracle", "src/cutting_plane.rs:cutting_plane_optim"]}
{"id": "C64", "title": "Low-pass design reaches every achievable stopband level", "statement": "cutting_plane_optim with LowpassOracle returns a stopband bound at most sigma, attained by the returned filter which meets the whole specification, whenever the initial ellipsoid contains a ball of filters meeting the specification with bound sigma, for enough iterations and small enough tolerance.", "quantifier": "all filter lengths, band edges, bounds, oracle positions, starts (exact arithmetic)", "why_tests_cant": "all specifications and starts", "anchors": ["src/oracles/lowpass_oracle.rs:LowpassOracle", "src/cutting_plane.rs:cutting_plane_optim"]}
{"id": "C65", "title": "bsearch over BSearchAdaptor minimises to any accuracy", "statement": "For a family of feasibility oracles indexed by a level t (update sets t; the oracle accepts only points of F with f <= t and otherwise returns a correct cut with gradient bounded away from zero), bsearch over a BSearchAdaptor on an Ell returns true and leaves the adaptor's centre at a point of F whose value is within eps of the minimum, provided the interval brackets the minimum, the tolerances are small enough and the iteration limits large enough. In particular example3's oracle is solved to its minimum -8.", "quantifier": "all truthful oracle families, all convex sets F with interior, objectives continuous at the minimiser, all starting ellipsoids that cover F from their own centre and from every point of F, all bracketing intervals, all accuracies", "why_tests_cant": "every oracle, set, interval and accuracy; the adaptor moves its own starting ellipsoid between probes, so a later probe can in principle lose the solution", "anchors": ["src/cutting_plane.rs:bsearch", "src/cutting_plane.rs:BSearchAdaptor", "src/example3.rs:MyOracle3"]}
{"id": "C66", "title": "Each cut yields the least-volume ellipsoid", "statement": "If an admissible single or parallel cut whose near plane meets the ellipsoid (lo >= -tau) is accepted, the new ellipsoid contains every point of the old one that satisfies the cut, and no ellipsoid containing all those points has smaller Lebesgue volume. In particular for a single cut -tau/n <= beta < tau and for a slab -tau <= beta0 < beta1 < tau with tau^2 + n beta0 beta1 >= 0.", "quantifier": "all n >= 2, all ellipsoids, nonzero gradients, admissible cuts of the three update kinds, all competing ellipsoids (exact arithmetic)", "why_tests_cant": "optimality against a continuum of competitors in every dimension", "anchors": ["src/ell.rs:Ell::update_core", "src/ell_calc.rs:EllCalcCore"]}
{"id": "C67", "title": "Scaling a cut changes nothing", "statement": "Replacing a cut (g, beta) by (s g, s beta) with s > 0, single or parallel, under any of the three update methods gives the same status, the same matrix, centre and kappa; only tsq is multiplied by s^2.", "quantifier": "all n >= 1, all ellipsoids with symmetric matrix, all gradients and offsets, all s > 0, all three update kinds (exact arithmetic)", "why_tests_cant": "every scale and every ellipsoid; an oracle author relies on it when normalising gradients", "anchors": ["src/ell.rs:Ell::update_core", "src/ell_calc.rs:EllCalc"]}
{"id": "C68", "title": "The method does not depend on the coordinate system", "statement": "If a second problem is the first one rewritten in coordinates y = A x + b (ellipsoid mapped, oracle answers the same questions with gradients related by the transpose of A), then cutting_plane_feas, cutting_plane_optim, cutting_plane_optim_q and bsearch over a BSearchAdaptor behave identically on both: same panics, same iteration counts, same gamma, and the answers correspond by y = A x + b.", "quantifier": "all n >= 1, matrices A, shifts b, stateful oracles, options, starting ellipsoids (exact arithmetic)", "why_tests_cant": "relational property over all coordinate changes and whole runs", "anchors": ["src/cutting_plane.rs:cutting_plane_feas", "src/cutting_plane.rs:cutting_plane_optim", "src/cutting_plane.rs:cutting_plane_optim_q", "src/cutting_plane.rs:bsearch", "src/ell.rs:Ell"]}
{"id": "C69", "title": "No update divides by zero or takes the root of a negative number", "statement": "In exact arithmetic every update of an Ell of dimension at least two, with a nonzero gradient and an admissible cut, performs only defined operations (no division by zero, no square root of a negative number), for any sequence of updates of the three kinds with one or two planes; so does every whole run of cutting_plane_feas and cutting_plane_optim with an honest oracle while a ball of wanted points is left. The limits are real: a zero gradient makes the new centre undefined although the update reports success, and in dimension one a strategy constant is 1/0.", "quantifier": "all n >= 2, valid ellipsoids, sequences of admissible cuts, honest stateful oracles, options (exact arithmetic with an explicit undefined value)", "why_tests_cant": "ranges over all update histories and oracles; a NaN appears only for particular values", "anchors": ["src/ell.rs:Ell::update_core", "src/ell_calc.rs:EllCalc", "src/ell_calc.rs:EllCalcCore", "src/cutting_plane.rs:cutting_plane_feas", "src/cutting_plane.rs:cutting_plane_optim"]}
{"id": "C70", "title": "cutting_plane_optim_q never discards a better discrete point", "statement": "With an honest discrete oracle (every strictly better point satisfies the returned cut; the offset may have either sign) cutting_plane_optim_q on Ell does not panic, and whatever max_iters and tolerance, every point of the initial ellipsoid strictly better than the returned gamma lies in the final ellipsoid. With tolerance <= 0, stopping early means that no such point exists, or that the last cut had no effect and the oracle offered no alternative.", "quantifier": "all n >= 2, honest stateful oracles, one- and two-plane cuts, offsets of any sign, ellipsoids, options (exact arithmetic)", "why_tests_cant": "ranges over all oracles and histories of retries", "anchors": ["src/cutting_plane.rs:cutting_plane_optim_q", "src/cutting_plane.rs:OracleOptimQ", "src/ell.rs:Ell", "src/ell_calc.rs:EllCalc"]}
{"id": "C71", "title": "What survives rounding, and what does not", "statement": "Let every single operation be rounded (monotone, relative error at most u, radix two; f64 with unbounded exponents is u = 2^-53). Then a dot product of length n is within ((1+u)^(n+1)-1) sum|x_i||y_i| of the exact one; the tsq() an Ell update leaves is within ((1+u)^(2n+3)-1) kappa |g|^T|M||g| of kappa g^T M g; a NoSoln verdict of update_bias_cut holds up to that margin; along any sequence of central cuts with no_defer_trick off every update succeeds and kappa never drops below its first value; bsearch probes stay inside the interval, the bracket keeps a rejected lower and an accepted upper end, and after k probes its width is at most (r-l)/2^k + 4u max(|l|,|r|), and it stops by itself when the tolerance exceeds that. In contrast, a false flag of bsearch does not mean that no probe was accepted, and one central cut can turn a positive definite matrix into a singular one.", "quantifier": "all rounding functions of the standard model, dimensions, vectors, ellipsoids, cuts, run lengths, bsearch oracles, intervals, options; the two negative statements are witnesses in f64 arithmetic", "why_tests_cant": "ranges over all inputs and over all rounding errors", "anchors": ["src/arr.rs:Arr::dot", "src/ell.rs:Ell::update_core", "src/ell_calc.rs:calc_bias_cut", "src/ell_calc.rs:calc_central_cut", "src/cutting_plane.rs:bsearch"]}
{"id": "C72", "title": "Explicit number of iterations and tolerance for a given accuracy", "statement": "For an oracle that maximises a concave f over a convex F: if a ball of feasible points of radius r lies in the initial ellipsoid and no feasible point of the ellipsoid is better than a point of that ball by more than V, then tolerance at most (eps r G / V)^2 and more than (n+1) ln(det(kappa M)/(eps r/V)^(2n)) iterations guarantee that no feasible point of the initial ellipsoid is better than the value returned by cutting_plane_optim by more than eps. With tolerance zero the error after N iterations is at most V det(kappa M)^(1/2n)/r exp(-N/(2n(n+1))). The examples example1, example1_rr and example4 run with their test settings are solved to within 8e-5 (example4: 24e-5 relative to the disc, which excludes its optimum); example1 with Options::default() to within 8e-10. An initial value above every feasible value is returned unchanged without a point.", "quantifier": "all oracles for concave maximisation (any hidden state), dimensions n >= 2, valid ellipsoids, initial values, accuracies, options", "why_tests_cant": "a convergence rate is a statement about every accuracy and every run length", "anchors": ["src/cutting_plane.rs:cutting_plane_optim", "src/cutting_plane.rs:Options", "src/ell.rs:Ell", "src/example1.rs:MyOracle", "src/example1_rr.rs:MyOracle", "src/example4.rs:MyOracle"]}
{"id": "C73", "title": "Quadratic objectives as the tests write them", "statement": "The quadratic oracles in tests/ and benches/ (minimise sum a_i (x_i - t_i)^2, offset always f(x)) never panic, report an improvement exactly when f(x) < gamma, and cutting_plane_optim with them ends with a value of at most eps whenever the initial ellipsoid contains a small ball around the minimiser, for explicit iteration and tolerance bounds; the returned point has the returned value. The offset of a non-improving answer is f(x) instead of f(x) - gamma, so such an answer may cut off better points, but never the points of value below f(x)/4. The benchmark starts at the minimiser and stops in its first iteration.", "quantifier": "all dimensions, targets, positive weights, accuracies, ellipsoids, iteration limits and tolerances (exact arithmetic)", "why_tests_cant": "the tests run a handful of starting points and accept a value below 10 or 100; accuracy for every setting needs the volume argument", "anchors": ["tests/integration_test.rs:KnownOptimalOracle", "tests/regression_tests.rs:QuadraticOracle", "tests/numerical_stability.rs:IllConditionedOracle", "benches/ellipsoid.rs:BenchOracle", "src/cutting_plane.rs:cutting_plane_optim", "tests/regression_tests.rs:ScalingOracle"]}
{"id": "C74", "title": "Minimising a linear cost subject to two LMIs (MyLmiOracle)", "statement": "The round-robin oracle of tests/lmi_tests.rs never panics, reports an improvement exactly when the point satisfies both LMIs and costs at most gamma, and its cuts keep every feasible point that costs at most the value it leaves in gamma; a run returns only feasible points that cost at most the initial gamma, and gamma ends as the cost of the returned point.", "quantifier": "all dimensions, LMI sizes, symmetric data, cost vectors, oracle states, ellipsoids, tolerances and iteration limits (exact arithmetic)", "why_tests_cant": "the test only asserts that some point is returned within a number of iterations, which it is although gamma is wrong", "anchors": ["tests/lmi_tests.rs:MyLmiOracle", "src/oracles/lmi_oracle.rs:LMIOracle", "src/cutting_plane.rs:cutting_plane_optim"]}
{"id": "C75", "title": "Portfolio optimisation (PortfolioOracle)", "statement": "The portfolio oracle never panics, reports an improvement exactly when the portfolio is within budget and risk limit and returns more than -gamma, and its cuts keep every feasible portfolio; a run returns only feasible portfolios, gamma ends as minus the return of the returned portfolio, and with enough iterations the return is as good as that of a ball of feasible portfolios.", "quantifier": "all numbers of assets, expected returns, risk matrices with nonnegative risk, limits, ellipsoids, tolerances and iteration limits (exact arithmetic)", "why_tests_cant": "the example only prints whatever was found; how far that is from the optimum cannot be seen from one run", "anchors": ["examples/portfolio_optimization.rs:PortfolioOracle", "src/cutting_plane.rs:cutting_plane_optim"]}
{"id": "C76", "title": "Oracles and linear-algebra routines perform no undefined arithmetic operation", "statement": "No division by zero, square root of a negative number or logarithm of a non-positive number happens in: factor, factor_with_allow_semidefinite, factorize, witness and sym_quad of the LDLT manager on any matrix; sqrt after a successful factorisation; conjugate_gradient on any input; the four power iterations for an invertible matrix and a nonzero start; the LMI oracles, the low-pass oracle and its constructor; the profit oracles and their constructors where the quantities under the logarithm are positive; the two example oracles. Whole cutting-plane runs on LMI and low-pass problems are free of undefined values as well.", "quantifier": "all matrices, sizes, starting points, tolerances, histories (exact arithmetic with an explicit undefined value)", "why_tests_cant": "a NaN appears only for particular matrices or points; tests that do not hit them pass", "anchors": ["src/oracles/ldlt_mgr.rs", "src/conjugate_gradient.rs", "src/power_iteration.rs", "src/oracles/lmi_oracle.rs", "src/oracles/lowpass_oracle.rs", "src/oracles/profit_oracle.rs"]}
{"id": "C77", "title": "What an early stop proves, for every tolerance", "statement": "With valid cuts whose gradients have norm at least G: if cutting_plane_feas returns None before max_iters, the initial ellipsoid contains no ball of feasible points of radius sqrt(tol)/G or more; if cutting_plane_optim stops before max_iters, it contains no such ball of points strictly better than the returned value. When a concave function is maximised and a ball of feasible points of radius r lies in the ellipsoid, with no feasible point better by more than V than a point of the ball, an early stop means that no feasible point of the ellipsoid beats the returned value by more than V sqrt(tol)/(r G). For example1 with its test's disc the error is at most 8 sqrt(tol).", "quantifier": "all oracles with valid cuts (any hidden state), dimensions n >= 2, valid ellipsoids, tolerances, iteration limits, runs that end early", "why_tests_cant": "the absence of every ball of solutions, and an error bound that covers every run, are statements over all points and oracles", "anchors": ["src/cutting_plane.rs:cutting_plane_feas", "src/cutting_plane.rs:cutting_plane_optim", "src/ell.rs:Ell"]}
{"id": "C78", "title": "With a positive tolerance the methods stop by themselves", "statement": "cutting_plane_feas and cutting_plane_optim on an ellipsoid, with a positive tolerance, end by themselves (not through max_iters) after a number of iterations bounded by an explicit logarithm of tolerance, gradient bound L and initial ellipsoid, for every oracle whose cuts have gradients of norm at most L and offsets >= 0, single or parallel, degenerate ones included, whatever the cuts remove. Consequently a feasibility run with enough iterations decides up to the tolerance: it returns an accepted point, or no ball of feasible points of radius sqrt(tol)/G lies in the initial ellipsoid. example1 with its test's disc and any tolerance from 1e-20 to 1/4 ends within 900 iterations with an error of at most 8 sqrt(tol).", "quantifier": "all oracles with bounded gradients and non-negative offsets (any hidden state, honest or not), dimensions n >= 2, valid ellipsoids, positive tolerances", "why_tests_cant": "termination for every oracle is not a property of any finite set of runs", "anchors": ["src/cutting_plane.rs:cutting_plane_feas", "src/cutting_plane.rs:cutting_plane_optim", "src/ell.rs:Ell", "src/ell_calc.rs:EllCalc"]}
{"id": "C79", "title": "The power iterations find the dominant eigenvalue", "statement": "For symmetric A with a nonzero eigenvalue lambda such that all others are at most rho |lambda| in absolute value, and a start not orthogonal to its eigenvector u: every one of the four variants returns, and after k multiplications the value misses lambda by at most 2 |lambda| rho^(2k) tan^2(u, x), the unit vector left by variants 1, 2, 4 has squared cosine at least 1 - rho^(2k) tan^2(u, x) with u, and the count obeys an explicit bound in the tolerance. If rho < 1, for every accuracy there is a tolerance below which power_iteration and power_iteration4 stop by themselves with a value of that accuracy; power_iteration2 and power_iteration3 do so for positive semidefinite A. On indefinite A those two can stop at a wrong value for every tolerance (witness diag(3,-1,-2)). The exact count and result of each variant are given by the sequence A^k x.", "quantifier": "all sizes, symmetric matrices with a dominant eigenvalue, starts, tolerances, iteration limits (exact arithmetic)", "why_tests_cant": "accuracy for every matrix, start and tolerance is a limit statement", "anchors": ["src/power_iteration.rs:power_iteration", "src/power_iteration.rs:power_iteration2", "src/power_iteration.rs:power_iteration3", "src/power_iteration.rs:power_iteration4"]}
{"id": "C80", "title": "Conjugate gradient: which point it returns and how many iterations are enough", "statement": "For a symmetric positive definite matrix A, tol > 0 and a start x0 that does not already solve the system: conjugate_gradient returns Ok(x) exactly if x is, for some 1 <= k <= max_iter, the point of least energy y'Ay - 2b'y among all points that differ from x0 by a combination of r, Ar, ..., A^(k-1) r (r = b - A x0), its residual norm is below tol, and no smaller k has such a point; otherwise it returns the 'max iterations' error. It succeeds whenever max_iter is at least the number of distinct eigenvalues of A, and whenever 2 sqrt(hi/lo) ((sqrt hi - sqrt lo)/(sqrt hi + sqrt lo))^max_iter times the initial residual norm is below tol, where lo and hi bound the spectrum; and the returned x is within tol/lo of the solution.", "quantifier": "every dimension, every symmetric positive definite matrix, right-hand side, starting point, positive tolerance and iteration limit", "why_tests_cant": "Optimality over a growing subspace and the iteration bounds quantify over all matrices and all competing points; a test sees the final residual of a few small systems.", "anchors": ["/repo/src/conjugate_gradient.rs: conjugate_gradient"]}
{"id": "C81", "title": "What a NaN does", "statement": "Assume of the arithmetic only what IEEE-754 guarantees about NaN (every operation on a NaN gives a NaN, every comparison with it is false). A single cut with a NaN in its gradient or offset, or applied to an ellipsoid whose size has a NaN, is reported as Success; the new centre consists of NaN, and every later cut is a Success with a NaN centre. A parallel cut does the same, except that its own two offsets are compared first. A cutting-plane run on such an ellipsoid never stops early by the ellipsoid's size: cutting_plane_optim uses up max_iters, cutting_plane_feas does so too or ends with the oracle's approval of a NaN point; hence a 'no solution' reported before max_iters is never caused by a NaN. The factorisation reports a matrix with a NaN first entry as positive definite, and the LMI oracles, the example oracles, the SVM oracle, the profit oracle and the low-pass feasibility oracle all approve a point made of NaN, so a spoilt run with an LMI oracle reports 'feasible' after at most one cut, and a spoilt optimisation with an approving oracle returns a NaN point as the best one; low-pass optimisation panics. conjugate_gradient answers with the max-iterations error, the power iterations use up max_iters and return a NaN eigenvalue, and bsearch panics on a NaN bound and uses up all iterations on a NaN tolerance.", "quantifier": "every scalar type with NaN-like values, every dimension, ellipsoid, cut, cut sequence, oracle (with gradients of the right length), matrix, tolerance and iteration limit", "why_tests_cant": "It concerns every later cut and every oracle after one NaN; tests run on ordinary numbers, and a test that meets a NaN sees one trajectory.", "anchors": ["/repo/src/ell.rs: Ell::update_core", "/repo/src/ell_calc.rs: EllCalc", "/repo/src/cutting_plane.rs: cutting_plane_feas, cutting_plane_optim, bsearch", "/repo/src/oracles/ldlt_mgr.rs: LDLTMgr::factor", "/repo/src/oracles/lmi_oracle.rs, lmi_old_oracle.rs, lmi0_oracle.rs, svm_oracle.rs, profit_oracle.rs, lowpass_oracle.rs", "/repo/src/example1.rs, example1_rr.rs, example3.rs, example4.rs, quasicvx.rs", "/repo/src/conjugate_gradient.rs: conjugate_gradient", "/repo/src/power_iteration.rs"]}
{"id": "C82", "title": "What an answer of the factorisation and of the LMI oracles means in floating point", "statement": "With arithmetic that rounds each operation with relative error at most u (f64: 2^-53): if LDLTMgr::factor reports 'positive definite' for an n\u00d7n matrix A then A + 3nu\u00b7tr(A)\u00b7I is positive definite, and it does report so whenever A - \u03bbI is positive semidefinite for some \u03bb > 6nu\u00b7tr(A); it never panics. If LMIOracle::assess_feas(x) (or the eager LMIOldOracle, which gives the same answers) accepts x then B - \u03a3 x_k F_k becomes positive definite after adding 4n(n+d+1)us to its diagonal, s being the largest |B_ij| + \u03a3|x_k (F_k)_ij|; it accepts every x with a margin above 8n(n+d+1)us. A cut (g, \u03b2) has \u03b2 \u2265 0 and, with \u03b2 shortened by the relative amount 12nu, keeps every y at which the matrix inequality holds with margin nu(8(n+d+1)s + 2(n\u00b2+2)\u03a3 f_k|y_k - x_k|). The same holds of LMI0Oracle. A point returned by cutting_plane_feas with an LMI oracle, after any number of cuts on any search space, satisfies the inequality up to the first of these margins. A point returned by cutting_plane_optim with MyLmiOracle (minimise a linear cost subject to two LMIs) satisfies both inequalities up to this margin and costs at most the starting value, up to the error of the dot product.", "quantifier": "every rounding with unit u, every n and d with 16(n\u00b2+n+d+2)u \u2264 1 (acceptance: 16(n+d+1)u \u2264 1), all symmetric matrices, every point, every state of the oracle, every run", "why_tests_cant": "Tests compare a few matrices with a tolerance chosen by eye. How far a matrix may be from positive definite and still be accepted, for every size and every entry, is a statement about all roundings.", "anchors": ["/repo/src/oracles/ldlt_mgr.rs: LDLTMgr::factor, LDLTMgr::witness, LDLTMgr::sym_quad", "/repo/src/oracles/lmi_oracle.rs: LMIOracle::assess_feas", "/repo/src/oracles/lmi_old_oracle.rs: LMIOldOracle::assess_feas", "/repo/src/oracles/lmi0_oracle.rs: LMI0Oracle::assess_feas", "/repo/src/cutting_plane.rs: cutting_plane_feas", "/repo/tests/lmi_tests.rs: MyLmiOracle"]}
{"id": "C83", "title": "The round-robin oracles of the ported tests answer correctly, and the runs built on them solve their problems", "statement": "MyOracle2 (tests/example2_tests.rs): from every position of its counter a query never panics, accepts a point exactly if x + y <= 3 and -x + y + 1 <= 0, and otherwise returns a cut violated at the point that keeps every feasible point. cutting_plane_feas with it returns a feasible point within 3 ln(det(kappa M)/r^4) cuts if the ellipsoid contains a ball of radius r of feasible points, and returns (None, 0) from a fresh oracle if every point of the ellipsoid violates x + y <= 3; both tests follow. MyQuasicvxOracle (tests/quasicvx2_tests.rs): every answer is correct for 'maximise sqrt(x)/y subject to exp(x) <= y, x >= 0', and cutting_plane_optim with it comes within any eps of the optimal value e^(-1/2)/sqrt(2).", "quantifier": "every reachable counter position, every query point, every current value gamma, every ellipsoid, every option setting, every eps", "why_tests_cant": "The tests run three starting points each and only look at is_some / is_none.", "anchors": ["/repo/tests/example2_tests.rs: MyOracle2::assess_feas, test_case_feasible, test_case_infeasible", "/repo/tests/quasicvx2_tests.rs: MyQuasicvxOracle::assess_optim, test_case_feasible", "/repo/src/cutting_plane.rs: cutting_plane_feas, cutting_plane_optim"]}
{"id": "C84", "title": "NoSoln is reported whenever the cut misses the ellipsoid", "statement": "If no point of the current ellipsoid satisfies the cut (g^T(x-xc)+beta <= 0; parallel: additionally g^T(x-xc)+beta1 >= 0), then update_bias_cut, update_central_cut and update_q report NoSoln. Together with C18: for beta >= 0 the report is NoSoln if and only if the cut misses the ellipsoid.", "quantifier": "every dimension from 2 on, every valid ellipsoid, every nonzero gradient, every kind of update, every single or parallel cut", "why_tests_cant": "A test checks a few offsets; whether some offset on the far side is missed needs the whole range.", "anchors": ["/repo/src/ell.rs: Ell::update_bias_cut, Ell::update_central_cut, Ell::update_q", "/repo/src/ell_calc.rs: EllCalc::calc_bias_cut, EllCalc::calc_bias_cut_q, EllCalc::calc_parallel_bias_cut, EllCalc::calc_parallel_q, EllCalc::calc_parallel_central_cut"]}
{"id": "C85", "title": "Starting an optimisation at an infinite value means 'no value yet'", "statement": "Maximisation runs (examples 1, 1_rr, 4, MaxcutOracle, SvmOracle) start with gamma = f64::NEG_INFINITY and minimisation runs (the quadratic oracles of the documentation, tests and benchmark, the portfolio example) with f64::INFINITY. Such a run returns exactly what it returns from every finite first value that is extreme enough: same panics, same x_best, iteration count, oracle state and search space, same final gamma, except that gamma is still infinite if no point was found. No infinity enters the search space. The documented minimisation always returns a point. test_feasible of example1 gives the same feasible point as the exact run, within 8e-5 of the optimum, unless that is exactly optimal. Started at the wrong infinity, a run returns no point: the benchmark, which minimises from NEG_INFINITY, can never report one.", "quantifier": "every Ell and EllStable without infinite entries, every dimension, every option setting, every oracle state and data without infinities", "why_tests_cant": "The tests start at an infinity a few times; that the infinite value never leaks into a cut depth, a centre or a matrix needs every run.", "anchors": ["/repo/src/cutting_plane.rs: cutting_plane_optim", "/repo/src/lib.rs: crate documentation", "/repo/src/example1.rs, /repo/src/example1_rr.rs, /repo/src/example4.rs: MyOracle::assess_optim, tests", "/repo/src/oracles/maxcut_oracle.rs, /repo/src/oracles/svm_oracle.rs: assess_optim", "/repo/tests/integration_test.rs, /repo/tests/regression_tests.rs, /repo/tests/numerical_stability.rs", "/repo/benches/ellipsoid.rs: bench_ellipsoid_update"]}
{"id": "C86", "title": "In floating point a returned point is what it is said to be, up to the rounding in evaluating the problem at it", "statement": "With f64-style rounding in every operation, the oracles of examples 1, 1_rr, 2, 3 and 4 never panic and answer correctly up to a margin delta(x) of at most 16 units of roundoff times (1 + |x| + |y|): an accepted point satisfies every inequality up to delta(x) and its reported value is the objective at it up to delta(x); a cut is positive and keeps every point that satisfies the inequalities with margin delta(x) (and beats gamma by delta(x) + 2u|gamma|). Hence, whatever rounding did to the search space, cutting_plane_optim and cutting_plane_feas with such an oracle end without a panic, gamma never gets worse, gamma is unchanged if no point is returned, and a returned point satisfies the inequalities, and has the reported value, up to delta. The margin is needed: in f64 a point violating x + y <= 3 is accepted.", "quantifier": "every rounding with unit roundoff at most 1/8 under which 3 is representable (f64 in particular), every query point, every reachable counter position, every gamma and target, every Ell and EllStable of matching size (and any search space that keeps sizes), every option setting", "why_tests_cant": "Tests see a few rounded runs; that no run can return a point further off than the margin, even after rounding has ruined the ellipsoid, needs all of them.", "anchors": ["/repo/src/example1.rs, /repo/src/example1_rr.rs, /repo/src/example4.rs: MyOracle::assess_optim", "/repo/src/example3.rs: MyOracle3::assess_feas", "/repo/tests/example2_tests.rs: MyOracle2::assess_feas", "/repo/src/cutting_plane.rs: cutting_plane_optim, cutting_plane_feas"]}
{"id": "C87", "title": "EllStable: no panic and shape preservation for well-shaped input; what a gradient of the wrong length does", "statement": "For an EllStable whose mq is n x n (n >= 1) and xc has length n, any finite sequence of bias/central/q updates with length-n gradients never panics and keeps the sizes. A gradient shorter than n panics. A gradient longer than n is not noticed: the update is exactly that of its first n entries (Ell panics on it).", "quantifier": "all n, all states of matching size, all cut sequences, any scalar arithmetic", "why_tests_cant": "all shapes and sequences", "anchors": ["/repo/src/ell_stable.rs: EllStable::update_core"]}
{"id": "C88", "title": "Low-pass filter design in floating point: a returned filter meets the specification up to a stated error", "statement": "With f64-style rounding in every operation, the low-pass constructor never panics (0 <= wpass <= wstop <= 1) and its cosine table is right up to 2(pi n((1+u)^4 - 1) + u). A query with any such table never panics; an accepted filter x meets every inequality of the specification up to e(x) = ((1+u)^(n+2) - 1)(2 + eps)|x|_1 + eps|x|_1, and the reported stopband bound is the largest stopband value up to e(x); a cut is nonzero and deep, and both of its planes keep every filter z that meets the specification with a margin of the same order in |x|_1 and |z|_1. Hence, whatever rounding did to the search space, runs of cutting_plane_optim and cutting_plane_feas end without a panic, the bound never gets worse, and a returned filter meets the specification up to e(x). For create_lowpass_case(32) in f64 that is at most 1e-12 |x|_1.", "quantifier": "every rounding with unit roundoff at most 1/8 under which the naturals up to 15n are representable (f64 in particular), every n >= 1, band edges, bounds, query points, positions of the hidden counters, starting bound, option setting and search space that keeps sizes (Ell, EllStable)", "why_tests_cant": "Tests run one or two filter lengths; the claim covers every filter returned from every rounded run.", "anchors": ["/repo/src/oracles/lowpass_oracle.rs: LowpassOracle::new, assess_feas, assess_optim, create_lowpass_case", "/repo/src/cutting_plane.rs: cutting_plane_optim, cutting_plane_feas"]}
{"id": "C89", "title": "One-dimensional problems: the search spaces leave the finite numbers after one cut", "statement": "One would expect a one-dimensional Ell to bisect an interval. It does not: EllCalcCore::new(1.0) divides by 1*1 - 1. Assume of the arithmetic only what IEEE-754 guarantees about infinities and NaN. Then the first successful cut (single, or two planes with update_bias_cut or update_q) of an Ell or EllStable with a centre of length one leaves a size that is not finite, and from the second success on the centre is not finite, for every sequence of cuts. So cutting_plane_feas examines at most two finite points, and the best point of cutting_plane_optim is the given centre, the centre after one cut, or not finite. In exact arithmetic the bisection step makes the matrix zero; searching [-10, 10] for a number in [6, 7] reports NaN as the feasible point.", "quantifier": "every scalar type with IEEE-like non-finite values, every one-dimensional ellipsoid, sequence of cuts, oracle, tolerance and iteration limit", "why_tests_cant": "The tests in the repository only construct one-dimensional ellipsoids or check kappa > 0, which an infinite kappa passes; the claim covers every one-dimensional run.", "anchors": ["/repo/src/ell_calc.rs: EllCalcCore::new", "/repo/src/ell.rs: Ell::update_core", "/repo/src/ell_stable.rs: EllStable::update_core", "/repo/examples/quickcheck_tests.rs: prop_ell_single_dimension"]}
{"id": "C90", "title": "An oracle that repeats one cut is declared infeasible after an exactly known number of iterations", "statement": "If an oracle answers every query with the same single cut (g, beta), beta >= 0, and never reports an improvement, then cutting_plane_feas, cutting_plane_optim and cutting_plane_optim_q with Ell return no point, leave gamma as it was, and make exactly k iterations, where k is the first number with (n/(n+1))^k (tau + n beta) - n beta below beta or with a square below the tolerance, or the iteration limit; tau = sqrt(kappa g' M g) is the initial reach of the ellipsoid along g. For the three such oracles of the tests on a ball of squared radius 10 the count is 2.", "quantifier": "every dimension n >= 2, ellipsoid, gradient, beta >= 0, option setting, gamma, with and without no_defer_trick (exact arithmetic)", "why_tests_cant": "The tests check the count 2 for one ball, one cut and one or two limits; the formula for all ellipsoids and offsets needs an induction over the iterations.", "anchors": ["/repo/src/cutting_plane.rs: cutting_plane_feas, cutting_plane_optim, cutting_plane_optim_q", "/repo/src/ell.rs: Ell::update_core", "/repo/src/ell_calc.rs: EllCalc::calc_bias_cut, EllCalc::calc_bias_cut_q", "/repo/tests/cutting_plane_tests.rs: MyOracleInfeas, MyOracleOptim2, MyOracleOptimQ2"]}
{"id": "C91", "title": "The oracles and runs of tests/cutting_plane_tests.rs for all inputs", "statement": "MyOracleFeas accepts exactly the points with x + y <= 3, MyOracleOptim exactly those with x <= 1, y <= 1, x + y >= gamma; their other cuts are violated at the query point and keep every acceptable point. Runs with them never panic; returned points are acceptable; an acceptable centre is enough for a point to be returned, and so is a ball of acceptable points inside the ellipsoid with enough iterations; MyOracleOptim never changes gamma. If no point of the ellipsoid reaches gamma and the centre satisfies the box, both optimisation loops return (None, 0). In general, an optimisation run returns a point whenever the feasibility run over the same oracle at the initial gamma does. A run with MyOracleOptimQ3 returns a grid point whose value is the final gamma; but one of its cuts removes every point of value below gamma + (value of the query point - value of its rounding), so it loses better grid points. bsearch with MyOracleBS2 makes exactly the predicted number of probes and answers true iff one of them is positive; over a BSearchAdaptor whose oracle ignores gamma and accepts the centre every probe says yes and nothing changes.", "quantifier": "all query points, values gamma, retry flags, 2-dimensional ellipsoids, intervals and option settings (exact arithmetic)", "why_tests_cant": "Each test is a single run from the ball of squared radius 10 around the origin and mostly checks is_some(); which cuts are correct and what every run returns are claims about all inputs.", "anchors": ["/repo/tests/cutting_plane_tests.rs: MyOracleFeas, MyOracleOptim, MyOracleOptimQ3, MyOracleBS2, MyOracleFeas2 and all tests", "/repo/src/cutting_plane.rs: cutting_plane_feas, cutting_plane_optim, cutting_plane_optim_q, bsearch, BSearchAdaptor"]}
{"id": "C92", "title": "The properties sampled by the quickcheck example hold for all inputs", "statement": "In dimension more than one: the three numbers (rho, sigma, delta) of a central cut are positive for every tsq > 0; those of a bias cut with -tau < beta are positive exactly if -tau/n < beta < tau; those of a parallel cut are positive if 0 <= beta0 < beta1 and beta1^2 <= tsq. new_with_scalar stores the given kappa, tsq = 0, the identity matrix of the length of xc, and xc, in every dimension. A central cut with a non-zero gradient leaves kappa positive whatever its offsets, single or parallel, and any number of single central cuts on a ball all succeed with kappa positive after each. A bias cut is refused without change if beta^2 > tsq, succeeds with kappa positive if beta^2 < tsq, and is accepted with kappa = 0 if beta^2 = tsq.", "quantifier": "every dimension n >= 2 (real n > 1 for the formulas), ellipsoid with positive definite matrix, non-zero gradient, offset, list of cuts (exact arithmetic; dimension one is C89)", "why_tests_cant": "examples/quickcheck_tests.rs draws random ellipsoids but uses fixed offsets and gradients; it cannot cover all offsets, and its generator never hits beta^2 = tsq.", "anchors": ["/repo/examples/quickcheck_tests.rs: all prop_* functions", "/repo/src/ell.rs: Ell::new_with_scalar, Ell::update_central_cut, Ell::update_bias_cut", "/repo/src/ell_calc.rs: EllCalcCore::calc_central_cut, EllCalcCore::calc_bias_cut, EllCalcCore::calc_parallel_bias_cut"]}
{"id": "C93", "title": "The SVM oracle and its runs keep their promises in rounded arithmetic", "statement": "In rounded arithmetic a query of SvmOracle never panics, always reports improvement and leaves the oracle unchanged. If it answers stop (value 0, zero gradient), every true margin at the classifier is at least 1 up to an explicit error ((1+u)^(n+3)-1)|y_i|(sum|X_ij||w_j|+|b|). If it answers with a cut, the value gamma' < 1 is the margin of the chosen sample up to that error, no margin is below it by more than the error, and the cut keeps every classifier whose margin on that sample exceeds 1 by the error plus u|y_i| sum|X_ij||z_j-x_j|. A whole cutting_plane_optim run over any search space ends without a panic and its returned classifier satisfies the same. The error term is needed: in f64 the oracle answers stop at a classifier with margin 1-2^-60.", "quantifier": "every sample matrix, label list of representable integers, classifier, gamma, rounding with relative error u, steady search space, options", "why_tests_cant": "the margin is compared with 1 after rounding; no finite set of inputs bounds the error for all data.", "anchors": ["/repo/src/oracles/svm_oracle.rs: SvmOracle::assess_optim", "/repo/src/cutting_plane.rs: cutting_plane_optim"]}
{"id": "C94", "title": "The maxcut oracle and its runs report the weight of the cut in rounded arithmetic", "statement": "In rounded arithmetic a query of MaxcutOracle never panics and leaves the oracle unchanged; the weight it computes is that of the sign partition of the point up to ((1+u)^(n*n)-1) times the sum of the absolute crossing weights, and is exact if the weights are integers of size at most w and integers up to n*n*w are floating-point numbers; improvement is reported exactly if the computed weight beats gamma and then becomes gamma. A cutting_plane_optim run over any search space ends without a panic, gamma never decreases, and a returned point is a cut whose weight is the reported gamma up to that error, exactly for such integers. The error term is needed for general weights.", "quantifier": "every square weight matrix, point, gamma, rounding with relative error u, steady search space, options", "why_tests_cant": "the sum has n^2 rounded additions; tests use tiny integer graphs where rounding never shows.", "anchors": ["/repo/src/oracles/maxcut_oracle.rs: MaxcutOracle::assess_optim", "/repo/src/cutting_plane.rs: cutting_plane_optim"]}
{"id": "C95", "title": "Profit maximisation in floating point: the reported profit is the true one up to a stated error", "statement": "In rounded arithmetic a query of ProfitOracle never panics, whatever the oracle's history. If the point is accepted, its first coordinate is at most the rounded logarithm of the limit, the new gamma is its true profit up to an explicit error, and its profit is not below the old gamma by more than a stated amount. If it is rejected, gamma is unchanged, the offset of the cut is positive, and either the limit is violated or the profit is not above gamma by more than a stated amount. A cutting_plane_optim run over any search space ends without a panic, and its returned point satisfies the same. ProfitRbOracle does the same for the worst elasticities at the point. The error term is needed: in f64 the oracle can report a profit of 1 where it is 1-2^-59. ProfitOracleQ and a cutting_plane_optim_q run with it do the same at points whose coordinates are the rounded logarithms of positive integers.", "quantifier": "every positive data set, point, gamma, oracle history, rounding with relative error u <= 1/8, steady search space, options", "why_tests_cant": "the profit is computed as exp(log revenue) - cost; the absolute error of the logarithm is amplified by exp, and no finite set of inputs bounds it.", "anchors": ["/repo/src/oracles/profit_oracle.rs: ProfitOracle::assess_optim, ProfitRbOracle::assess_optim", "/repo/src/cutting_plane.rs: cutting_plane_optim", "/repo/src/oracles/profit_oracle.rs: ProfitOracleQ::assess_optim_q"]}
{"id": "C96", "title": "EllStable in floating point: the matrix stays positive definite", "statement": "In rounded arithmetic, an EllStable made by its constructors keeps an exactly diagonal matrix through every update, with any kind of cut, and no update panics. The reported tsq agrees with kappa g^T M g to n+3 roundings, with no cancellation. A central cut (n >= 2, nonzero gradient) succeeds and leaves a positive definite matrix whose diagonal does not grow; kappa, the diagonal and the centre agree with the exact update to a stated number of roundings. So any run of central cuts keeps the matrix positive definite, which is false for Ell (C71). A deep cut whose depth is nonnegative and below sqrt(tsq) by a relative margin of 64 roundings does the same.", "quantifier": "every rounding with relative error u <= 1/64, every diagonal positive EllStable, gradient of floating-point numbers, cut and length of run", "why_tests_cant": "loss of positive definiteness shows only for particular gradients after particular histories; a run that stays positive definite proves nothing about the next one.", "anchors": ["/repo/src/ell_stable.rs: EllStable::new, new_with_scalar, update_bias_cut, update_central_cut, update_q", "/repo/src/ell_calc.rs: EllCalcCore::calc_central_cut, calc_bias_cut_fast"]}
{"id": "C97", "title": "Power iterations in floating point", "statement": "In rounded arithmetic the four power iterations never panic on a square matrix and a vector of matching length, and never exceed the allowed number of iterations. Unless the vector left behind is zero, power_iteration, power_iteration2 and power_iteration4 leave a vector of Euclidean norm one up to 2n+10 roundings and return its Rayleigh quotient up to 2n+2 roundings of |x|^T |A| |x|; power_iteration3 returns the Rayleigh quotient of a vector that is the one left behind up to a positive factor. When power_iteration stops early, the residual |A x - l x| is at most L((1+3(n+5)u) tol + 7(n+5)u), where L bounds the norm of |A|, and for a symmetric matrix a true eigenvalue lies within that distance of the value returned.", "quantifier": "every rounding with relative error u < 1 (for the residual (n+5)u <= 1/16), every size, matrix, start vector, tolerance and iteration limit", "why_tests_cant": "a test compares with a known eigenvalue of one matrix; the bound has to hold for every matrix, including those where the iteration stops far from the dominant eigenvalue.", "anchors": ["/repo/src/power_iteration.rs: power_iteration, power_iteration2, power_iteration3, power_iteration4"]}
{"id": "C98", "title": "Conjugate gradient in floating point: what Ok(x) says about the true residual", "statement": "In any arithmetic conjugate_gradient returns Ok with the first textbook iterate (evaluated in that arithmetic) whose carried residual passes the tolerance test, Err breakdown when an earlier iterate has p^T A p = 0, and Err max iterations otherwise, and never panics on matching shapes. In rounded arithmetic the carried residual of iterate k differs from the true residual b - A x by at most 4(k+1)(n+5)u(L X + |b|), where X bounds the iterates made and L the norm of |A|; so Ok(x) means |b - A x| <= (1+3(n+5)u) tol + 4(k+1)(n+5)u(L X + |b|). The absolute term is needed: for 3x = 1 in f64 the answer is Ok for every positive tolerance, with true residual 2^-54.", "quantifier": "every scalar type (outcome), every rounding with (n+5)u <= 1/16 and (k+1)u <= 1/8 (residual), every size, matrix, right-hand side, start, tolerance and iteration limit", "why_tests_cant": "the drift grows with the history of iterates and the size of the data; a test checks it for one small system with a generous tolerance.", "anchors": ["/repo/src/conjugate_gradient.rs: conjugate_gradient"]}
{"id": "C99", "title": "IEEE-754 f64 with overflow and underflow: gradients that are too small or too large", "statement": "With every operation as in IEEE-754 binary64 (rounding, subnormal numbers, overflow, signed zeros, infinities, NaN): (1) the laws of NaN and of non-finite numbers used in C81 and C89 hold. (2) If the gradient is so small that the products in g^T M g underflow, then every update of Ell or EllStable, with any cut, records the size 0 and either is not Success and changes nothing else, or is Success and no coordinate of the new centre is finite; a bias cut with computed beta*beta > 0 is reported as NoSoln wherever the half-space lies. (3) Hence cutting_plane_feas answers (None, 0) when the first cut is that small, and cutting_plane_optim stops at once, whatever the feasible set: for the unit disc the half-plane x0 <= -1/4 is found in one iteration, and the same half-plane with its coefficients multiplied by 2^-620 is declared infeasible. (4) On the ball of new_with_scalar a finite gradient with an entry of at least 2^512 gives Success and a centre made of NaN, for every kind of update and every single cut. (5) Operation by operation f64 agrees with the arithmetic rounded to 53 bits of the rounding claims: sums that do not overflow, products and quotients that neither underflow nor overflow, all roots of numbers that are not negative, and all comparisons.", "quantifier": "every dimension, matrix, scale factor, centre, cut type and offset, every gradient below (above) the stated sizes, every oracle", "why_tests_cant": "the failures are outside the range of numbers tests use, and depend on the size of the products of entries, not on the geometry.", "anchors": ["/repo/src/ell.rs: Ell::update_core, update_bias_cut, update_central_cut, update_q, new_with_scalar", "/repo/src/ell_stable.rs: EllStable::update_core", "/repo/src/ell_calc.rs: EllCalc::calc_bias_cut, calc_bias_cut_q, calc_central_cut", "/repo/src/cutting_plane.rs: cutting_plane_feas, cutting_plane_optim"]}
{"id": "C100", "title": "IEEE-754 f64: overflow and underflow in the power iterations and the binary search", "statement": "With every operation as in IEEE-754 binary64: (1) if every entry of the starting vector is at most 2^-538 in absolute value, power_iteration and power_iteration2 return an eigenvalue and a vector without a single finite number, for every matrix and all options; (2) if the product of a finite matrix and the normalised starting vector is finite and has an entry of at least 2^512, and at least one iteration is allowed, both return 0 or NaN as the dominant eigenvalue; (3) if upper - lower overflows for finite ends of an interval, bsearch probes only +infinity: with an oracle that rejects it the answer is (false, 1), with one that accepts it every time the answer is (true, max_iters).", "quantifier": "every size, matrix, starting vector and options as stated; every oracle and every finite interval whose length overflows", "why_tests_cant": "the failures lie outside the range of numbers tests use; no finite set of inputs shows that they happen for every matrix and every oracle.", "anchors": ["/repo/src/power_iteration.rs: power_iteration, power_iteration2", "/repo/src/arr.rs: Arr::dot, DivAssign<f64>", "/repo/src/cutting_plane.rs: bsearch"]}
{"id": "C101", "title": "Ell1D: the one-dimensional search space is an interval and its cuts are exact", "statement": "Ell1D::new(l, u) stands for [l, u] with the midpoint as centre. For a gradient that is not zero every update reports tsq = (r g)^2; Success replaces the interval by exactly the part that satisfies the cut; NoSoln means that no point of the interval satisfies it; NoEffect that all do; in the last two cases nothing changes. A cut with beta >= 0 leaves at most half. Hence cutting_plane_feas on it finds a point of every feasible set that contains an interval of radius rho within [l, u], in at most log2((u-l)/(2 rho)) cuts; an answer None before max_iters excludes every such interval with (rho G)^2 >= tolerance; cutting_plane_optim stops only when no interval of better points of such a radius is left. A zero gradient with beta = 0 wrongly drops the left half. A probe of BSearchAdaptor over it keeps the radius and makes the point found the centre.", "quantifier": "every interval, cut, oracle with cuts of gradient size at least G and beta >= 0, tolerance and iteration limit; exact arithmetic", "why_tests_cant": "exactness of the remaining interval and the logarithmic count must hold for every cut and every oracle.", "anchors": ["/repo/src/ell1d.rs: Ell1D::new, update_single, update", "/repo/src/cutting_plane.rs: cutting_plane_feas, cutting_plane_optim"]}
{"id": "C102", "title": "inverse_spectral_fact yields spectra, and the low-pass oracle accepts exactly the filters that meet the specification", "statement": "For an impulse response h of any length, inverse_spectral_fact(h) has the entries sum_k h[t+k] h[k], does not panic, and the response the low-pass oracle computes from it at a frequency w is |H(w)|^2 of the filter h. Hence the oracle, whatever its hidden counters, accepts inverse_spectral_fact(h) if and only if lp <= |H|^2 <= up on its passband grid and |H|^2 <= sp on its stopband grid; its other constraints never reject the autocorrelation of a filter.", "quantifier": "every impulse response, every design problem, every state of the oracle; exact arithmetic", "why_tests_cant": "an identity over all real sequences and frequencies.", "anchors": ["/repo/spectral_fact.rs: inverse_spectral_fact", "/repo/src/oracles/lowpass_oracle.rs: LowpassOracle::new, assess_feas"]}
{"id": "C103", "title": "In floating point a cut of a well-conditioned ellipsoid loses no point beyond a stated inflation", "statement": "Let arithmetic round every operation with relative error at most u <= 1/64, and let the matrix M that Ell stores satisfy lam I <= M with entries at most B. If u is small against (n B / lam)^2 in the stated sense, a central cut, and a bias or q cut with beta between 0 and (1 - gamma) sqrt(kappa g^T M g) for a gamma in (0, 1], succeeds; the new matrix is symmetric and positive definite again with explicit bounds, det(kappa M) shrinks at the exact rate up to an explicit factor, and every point of the old ellipsoid (inflated t >= 1 times) that satisfies the cut lies in the new ellipsoid inflated by an explicit factor, which is 1 for u = 0 and t = 1. For a run of central cuts the factors compose; the conditions need to hold for the first ellipsoid only, with bounds that weaken by a constant factor per cut.", "quantifier": "every rounding rule with unit u, dimension, well-conditioned ellipsoid, non-zero gradient, cut depth in the range, run of central cuts and point of the space", "why_tests_cant": "containment must hold for every point and every pattern of rounding errors; a test sees one rounding of one run.", "anchors": ["/repo/src/ell.rs: Ell::update_core, update_central_cut, update_bias_cut, update_q", "/repo/src/ell_calc.rs: EllCalcCore::calc_central_cut, calc_bias_cut_fast"]}
{"id": "C104", "title": "In floating point of high enough precision the feasibility loop finds a point of every fat feasible set", "statement": "Let the arithmetic round every operation with relative error at most u. Run cutting_plane_feas on Ell with an oracle that never panics near the start and, when it rejects a point, returns a gradient of norm at least G and a single cut with beta >= 0 that every point of K satisfies. Suppose K contains a ball of radius r inside the first ellipsoid. For every dimension n >= 2, N, starting size, entry bound and r there is a unit roundoff u0 such that for u <= u0, tolerance at most r^2 G^2 / 8 and max_iters >= N > 2(n+1) ln(4^n det(kappa M) / r^(2n)) the call returns a point the oracle accepted, after at most that many cuts. An explicit condition on u is given that suffices; the 53 bits of f64 meet it for 17 central cuts of the unit disc and a feasible disc of radius 1/4.", "quantifier": "every rounding rule of a small enough unit, dimension >= 2, starting ellipsoid, oracle (any state), convex or non-convex set K with a ball in it, and options", "why_tests_cant": "it must hold for every oracle and every pattern of rounding errors over the whole run; tests see a few problems at one precision.", "anchors": ["/repo/src/cutting_plane.rs: cutting_plane_feas", "/repo/src/ell.rs: Ell::update_core, update_bias_cut", "/repo/src/ell_calc.rs: EllCalcCore::calc_bias_cut_fast"]}
{"id": "C105", "title": "In floating point of high enough precision the optimisation loop reaches every level that a ball of points beats", "statement": "Let the arithmetic round every operation with relative error at most u, small enough for N cuts. Run cutting_plane_optim on Ell with an oracle that never panics, never worsens gamma, and whose single cuts (central after an improvement, beta >= 0 otherwise, gradients of norm at least G) keep every point better than the new gamma. If a ball of radius r lies in the first ellipsoid, the tolerance is at most r^2 G^2 / 8 and max_iters >= N > 2(n+1) ln(4^n det(kappa M) / r^(2n)), the call returns and the ball does not consist of better points than the returned gamma only. For an oracle that evaluates inequalities and an objective in this arithmetic, the returned gamma is at least the smallest objective on any ball that satisfies the inequalities with a margin, up to that margin, and the returned point satisfies the inequalities and has this value up to the evaluation error. Examples 1 and 1_rr of the crate reach 3 - eps for every eps, example 4 a value that no feasible point of the first disc beats by more than eps, and the oracle of the example2 test finds a point, at every high enough precision.", "quantifier": "every rounding rule of a small enough unit, dimension >= 2, starting ellipsoid, starting value, oracle (any state), family of better points with a ball in it, and options", "why_tests_cant": "it must hold for every oracle and every pattern of rounding errors over the whole run; tests see a few problems at one precision.", "anchors": ["/repo/src/cutting_plane.rs: cutting_plane_optim, cutting_plane_feas", "/repo/src/ell.rs: Ell::update_core, update_bias_cut, update_central_cut", "/repo/src/ell_calc.rs: EllCalcCore::calc_bias_cut_fast, calc_central_cut", "/repo/src/example1.rs: MyOracle::assess_optim", "/repo/tests/example2_tests.rs: MyOracle2", "/repo/src/example1_rr.rs: MyOracle::assess_optim", "/repo/src/example4.rs: MyOracle::assess_optim"]}
{"id": "C106", "title": "Error messages name the kind of the error and carry everything it holds; an error equals its clone unless it carries a NaN", "statement": "For every EllipsoidError: messages of different kinds are different; every text, count and number the error carries appears in the message; apart from NumericalInstability the error can be recovered from its message if numbers are printed injectively. (For NumericalInstability it cannot: a value and the same text inside the details print alike.) == holds exactly for errors of the same kind with the same texts and counts whose numbers are equal as f64, so an error equals its clone exactly if it carries no NaN.", "quantifier": "every pair of error values: all counts, texts and numbers, every way of printing numbers", "why_tests_cant": "texts and counts are unbounded; the test compares two messages and one clone, none of them with a NaN or a text that looks like a value.", "anchors": ["/repo/src/error.rs: EllipsoidError, Display, PartialEq, Clone"]}
{"id": "C107", "title": "In floating point of high enough precision bisection over the feasibility loop minimises", "statement": "Run bsearch on BSearchAdaptor on Ell in an arithmetic whose unit roundoff is small enough for N cuts, on [l, up] with a feasibility oracle that has a level, is correct up to rounding at every level and sets the level in update. Let a ball of radius r satisfy the inequalities of every level t >= t1 > l with more margin than rounding can take, and let the adaptor's ellipsoid cover the ball from its own centre and from every point the oracle may accept. With enough inner iterations the call does not panic; if it returns true the centre the adaptor is left with satisfies, up to rounding, the inequalities of a level t <= t1 + D, and if it returns false then up <= t1 + D, where D is the larger of three times the outer tolerance and (9/16)^max_iters (up - l) + (16/7) u max(|l|, |up|). Example 3 of the crate reaches -8 + eps for every eps at every high enough precision.", "quantifier": "every rounding rule of a small enough unit, dimension >= 2, oracle with a level (any state), family of inequalities, interval, ellipsoid and options", "why_tests_cant": "it must hold for every oracle, interval and pattern of rounding errors over nested loops; the test runs one problem at one precision.", "anchors": ["/repo/src/cutting_plane.rs: bsearch, BSearchAdaptor::assess_bs, cutting_plane_feas", "/repo/src/ell.rs: Ell::update_core", "/repo/src/example3.rs: MyOracle3"]}
{"id": "C108", "title": "In floating point of high enough precision the feasibility loop solves linear matrix inequalities", "statement": "Run cutting_plane_feas with LMIOracle (fresh or already used) on Ell in an arithmetic whose unit roundoff is small enough for the sizes, the bounds on the data and the wanted accuracy eta. If B - sum y_k F_k - lam I is positive semidefinite for every y of a ball of radius r that lies in the start ellipsoid {kappa, M}, the tolerance is at most lam^2/32 and max_iters exceeds 2(d+1) ln(4^d det(kappa M)/r^(2d)), then the run does not panic and returns a point x with B - sum x_k F_k + eta I positive definite, after at most that many cuts. No bound on the size of the cuts is assumed: the margin lam keeps the computed tau away from zero.", "quantifier": "every rounding rule of a small enough unit, dimension >= 2, matrix size, symmetric matrices F_k and B within the bounds, oracle state, ellipsoid and options", "why_tests_cant": "it must hold for every family of matrices and every pattern of rounding errors through factorisation, witness, gradient and ellipsoid updates; the test solves one 2-matrix problem at one precision.", "anchors": ["/repo/src/cutting_plane.rs: cutting_plane_feas", "/repo/src/oracles/lmi_oracle.rs: LMIOracle::assess_feas", "/repo/src/oracles/ldlt_mgr.rs: LDLTMgr::factor, LDLTMgr::witness, LDLTMgr::sym_quad", "/repo/src/ell.rs: Ell::update_core"]}
{"id": "C109", "title": "Within the range of f64, runs in IEEE-754 f64 are the runs in arithmetic rounded to 53 bits", "statement": "Take a search space Ell in IEEE-754 binary64 (infinities, NaN, gradual underflow, signed zeros) and the same numbers in arithmetic rounded to 53 bits without exponent limits. If, in the latter, no operation of the update overflows, no product or quotient underflows, no divisor is zero and no root is taken of a negative number, then the update (bias, central or discrete, SingleCut or ParallelCut, either setting of no_defer_trick) returns in f64 the same status and number for number the same state. Hence cutting_plane_feas, cutting_plane_optim and cutting_plane_optim_q, with oracles that answer the same at the points reached, return in f64 the same point, value and iteration count. The constructors compute the same constants for every dimension from 2 to 2^64. So the floating-point guarantees C104 and C105 for f64 without exponent limits hold for IEEE f64 runs that stay in range.", "quantifier": "every dimension, state, gradient, cut, update kind, oracle pair, options and number of iterations, for runs whose operations stay in the normal range of f64", "why_tests_cant": "it relates every possible run in two arithmetics, operation by operation; a test observes one run in one of them.", "anchors": ["/repo/src/ell.rs: Ell::update_core, Ell::new_with_matrix", "/repo/src/ell_calc.rs: EllCalc, EllCalcCore", "/repo/src/cutting_plane.rs: cutting_plane_feas, cutting_plane_optim, cutting_plane_optim_q"]}
{"id": "C110", "title": "Parallel cuts work in floating point of high enough precision", "statement": "Take a search space Ell in arithmetic where every operation is rounded with a relative error of at most u. (1) One cut: update_bias_cut, update_q or update_central_cut with a ParallelCut whose beta0 (taken as 0 by update_central_cut) is nonnegative and leaves at least a part w of the radius, and whose beta1, if present, is at least 2w radii above beta0. If u is small enough, the update succeeds; the new ellipsoid contains every point of the old one between the two planes, and its volume falls by the factor exp(-1/(2n+2)) of exact arithmetic, both up to a factor near one; this holds for both settings of no_defer_trick and in every branch (two planes, or the second plane beyond the ellipsoid). (2) The loop: if an honest oracle's feasible set contains a ball of radius r inside the first ellipsoid and N > (n+1) ln(det(kappa M)/r^(2n)), which is the number of cuts that suffices in exact arithmetic, then there is a bound u0 on the unit roundoff, independent of oracle and run, below which cutting_plane_feas with parallel cuts returns a point the oracle accepted after fewer than N cuts.", "quantifier": "every dimension n >= 2, every rounding of small enough unit, state, gradient, pair of cut values, oracle, radius, tolerance and iteration limit", "why_tests_cant": "the branch taken, the rounding of every operation and the number of cuts depend on the run; a test observes finitely many runs in one arithmetic.", "anchors": ["/repo/src/ell.rs: Ell::update_bias_cut, Ell::update_q, Ell::update_central_cut, Ell::update_core", "/repo/src/ell_calc.rs: EllCalc::calc_parallel_bias_cut, EllCalc::calc_parallel_q, EllCalc::calc_parallel_central_cut", "/repo/src/ell_calc.rs: EllCalcCore::calc_parallel_bias_cut_fast", "/repo/src/cutting_plane.rs: cutting_plane_feas"]}
{"id": "C111", "title": "Low-pass filters are found in floating point of high enough precision", "statement": "Suppose that every filter in a ball of radius r meets the specification of a low-pass design with a margin mu > 0 and that the ball lies inside the first ellipsoid. There is a bound u0 > 0 on the unit roundoff and on the error of the oracle's cosine table, which depends only on the dimension, mu, r, an N > (n+1) ln(det(kappa M)/r^(2n)) and bounds for the ball, the ellipsoid and the specification. Below it, cutting_plane_feas with LowpassOracle from any state of its hidden counters returns, after fewer than N cuts, a filter that meets the specification up to mu. For two taps, passband bounds 1 and 3 and stopband bound 2, constructor, ellipsoid and loop together yield such a filter with mu = 1/10, for all band edges.", "quantifier": "every dimension n >= 2, specification, table error, counters of the oracle, rounding of small enough unit, first ellipsoid and options", "why_tests_cant": "it must hold for every specification with a fat feasible set and for every rounding; a test runs one specification in f64.", "anchors": ["/repo/src/oracles/lowpass_oracle.rs: LowpassOracle::assess_feas, LowpassOracle::new", "/repo/src/cutting_plane.rs: cutting_plane_feas", "/repo/src/ell_calc.rs: EllCalc::calc_parallel_bias_cut"]}
{"id": "C112", "title": "Optimisation with parallel cuts and low-pass design work in floating point of high enough precision", "statement": "(1) Let an oracle for an optimisation problem answer with parallel deep cuts, or improve the target and answer with parallel central cuts, and let it be honest up to rounding. For a ball of radius r inside the first ellipsoid and N > (n+1) ln(det(kappa M)/r^(2n)), there is a bound u0 on the unit roundoff, independent of oracle and run, below which cutting_plane_optim with max_iters >= N returns, and the ball is not made up of points better than the returned target. So if all points of the ball are better than a level sigma, the returned target is better than sigma. (2) For LowpassOracle: if all filters in a ball of radius r meet the specification with stopband bound sigma by a margin mu > 0, then below such a bound cutting_plane_optim returns a filter together with a stopband bound below sigma, and the filter meets the specification with this bound up to the rounding of one response. For two taps, passband bounds 1 and 3, starting bound 10 and all band edges up to 9/10, constructor, ellipsoid and loop together yield a bound below 8/5.", "quantifier": "every dimension n >= 2, oracle, level, specification, table error, counters of the oracle, rounding of small enough unit, first ellipsoid, starting target and options", "why_tests_cant": "it must hold for every problem with a fat set of good points and for every rounding; a test runs one specification in f64.", "anchors": ["/repo/src/cutting_plane.rs: cutting_plane_optim", "/repo/src/oracles/lowpass_oracle.rs: LowpassOracle::assess_optim, LowpassOracle::new", "/repo/src/ell.rs: Ell::update_central_cut, Ell::update_bias_cut", "/repo/src/ell_calc.rs: EllCalc::calc_parallel_central_cut"]}
{"id": "C113", "title": "The power iterations work on every positive semidefinite matrix, whatever the gaps between eigenvalues", "statement": "Let A be symmetric positive semidefinite, A x != 0, L a bound on the eigenvalues, r > 0 the Rayleigh quotient of the start and k = min(niter + 1, max_iters) the number of multiplications. (1) All four variants return; the value lies between r and the largest eigenvalue, and for every eigenvalue lam with unit eigenvector u, lam^(2k) (u.x)^2 <= value^(2k) (x.x), so that lam - value <= lam log(x.x/(u.x)^2)/(2k). (2) power_iteration2 and power_iteration3 stop after at most (L - r)/tolerance iterations, and if the count is below max_iters the value is within sqrt(L tolerance) + tolerance of an eigenvalue. (3) power_iteration stops after at most 2 n L (L - r)/(r tolerance)^2 iterations and then is within L tolerance of an eigenvalue; power_iteration4 after at most 8 n L (L - r)/(r tolerance)^2, within sqrt(n) L tolerance. Repeated or clustered eigenvalues are allowed.", "quantifier": "all sizes, positive semidefinite matrices, starts not in the kernel, tolerances, iteration limits (exact arithmetic)", "why_tests_cant": "termination and accuracy for every matrix, including those with repeated largest eigenvalues, is a statement about infinitely many runs of unbounded length", "anchors": ["src/power_iteration.rs:power_iteration", "src/power_iteration.rs:power_iteration2", "src/power_iteration.rs:power_iteration3", "src/power_iteration.rs:power_iteration4"]}
{"id": "C114", "title": "Training a support vector machine succeeds in floating point of high enough precision", "statement": "For every number of cuts N, every bound on the data, the labels, the first ellipsoid and the size of the solution set, and every mu > 0 there is a unit roundoff u0 such that in every arithmetic that rounds each operation with unit at most u0: if the labels are nonzero, a ball of radius r in the first ellipsoid consists of classifiers with all margins at least 1 + mu, 0 < tolerance <= r^2/8 and 2(d+1) ln(4^d det(kappa M)/r^(2d)) < N <= max_iters (d = features + 1), then cutting_plane_optim with the SVM oracle and Ell returns the value 0 and a classifier whose true margins are all at least 1 - mu. u0 does not depend on the samples or their number.", "quantifier": "all data sets of any number of samples and features within the bounds, all roundings of unit at most u0, all tolerances and iteration limits", "why_tests_cant": "a run in one precision on one data set says nothing about other data, and the interplay of rounded cuts with the shrinking ellipsoid needs an invariant over the whole run", "anchors": ["src/oracles/svm_oracle.rs:SvmOracle", "src/cutting_plane.rs:cutting_plane_optim", "src/ell.rs:Ell"]}
{"id": "C115", "title": "Profit maximisation succeeds in floating point of high enough precision", "statement": "For every profit problem with positive prices, scale and limit, elasticities at least 0 and the second below 1, every bound on the first ellipsoid and on the size of the feasible points compared with, and every eps > 0 there are a number N of steps and, for every K, a unit roundoff u0 and a tolerance tau such that in every arithmetic that rounds each operation with unit at most u0, cutting_plane_optim with ProfitOracle and Ell, from a level gamma >= 0 with N <= max_iters <= K and tolerance <= tau, does not panic; its final value is at least the true profit of every feasible point (of bounded size, with a unit disc around it in the first ellipsoid) minus eps; the returned point obeys the stored limit and the final value is its true profit up to eps. The same holds for ProfitRbOracle with uncertain elasticities, compared with the profit a point has for every elasticity in the range.", "quantifier": "all problem data in the stated ranges, all feasible points compared with, all roundings of unit at most u0, all tolerances at most tau and iteration limits between N and K, all runs of that length", "why_tests_cant": "a test fixes one problem in one precision; here acceptance may lower gamma slightly and late query points may be arbitrarily far away, so the bound needs an invariant over the whole run", "anchors": ["src/oracles/profit_oracle.rs:ProfitOracle", "src/oracles/profit_oracle.rs:ProfitRbOracle", "src/cutting_plane.rs:cutting_plane_optim", "src/ell.rs:Ell"]}
{"id": "C116", "title": "Conjugate gradient solves well-posed systems in floating point of high enough precision, within n steps", "statement": "For every size n, lower bound lo > 0 on the eigenvalues, bound M on the entries of the matrix, right-hand side and starting point, lower bound rho > 0 on the norm of the initial residual, lower bound tol0 > 0 on the tolerance and every eps > 0 there is a unit roundoff u0 such that in every arithmetic that rounds each operation with unit at most u0, conjugate_gradient on every symmetric system in that class, with or without a starting point, with tolerance at least tol0 and max_iter >= n, returns Ok(x); the true residual b - A x has Euclidean norm at most tol + eps and x is within (tol + eps) / lo of the solution.", "quantifier": "all sizes, all systems and starting points in the class, all roundings of unit at most u0, all tolerances at least tol0, all iteration limits at least n", "why_tests_cant": "in floating point the finite termination of the exact method is lost in general; a test samples systems and one precision, the claim is uniform over a class of systems and says neither error is ever returned", "anchors": ["src/conjugate_gradient.rs:conjugate_gradient"]}
{"id": "C117", "title": "In any arithmetic the power iterations return the first member of the textbook sequence that passes the test", "statement": "For every arithmetic, rounded or not, and for every square matrix, starting vector of that size, tolerance and iteration limit, each of the four power iterations returns without panicking; the pair it returns and the vector it leaves behind are the estimate and the iterate of the textbook sequence (multiply by the matrix, scale, Rayleigh quotient, each evaluated in that arithmetic) at the first index at which the stopping test of that variant holds, or at the iteration limit if it holds nowhere before.", "quantifier": "all arithmetics (including ones with NaN and rounding), all sizes n >= 1, all n x n matrices, all starting vectors, all tolerances, all iteration limits", "why_tests_cant": "a test compares numbers up to a tolerance on a few matrices; the claim identifies the whole run, operation by operation, with a closed specification", "anchors": ["src/power_iteration.rs:power_iteration", "src/power_iteration.rs:power_iteration2", "src/power_iteration.rs:power_iteration3", "src/power_iteration.rs:power_iteration4"]}
{"id": "C118", "title": "The power iterations find a dominant eigenvalue in floating point of high enough precision, in a bounded number of steps", "statement": "For every size, bound M on the entries of the matrix and the start, lower bound on the size of the dominant eigenvalue, ratio rho < 1 of the other eigenvalues to it, lower bound on the component of the start along its eigenvector, lower bound tol0 > 0 on the tolerance and every eps > 0 there are a number of steps N and a unit roundoff u0 such that in every arithmetic that rounds with unit at most u0, all four power iterations stop within N iterations on every symmetric matrix and start in that class and for every iteration limit; the eigenvalue they return is within the error bound of exact arithmetic plus eps, and if they stop before the limit the squared cosine of the angle between the vector left behind and the eigenvector is at least that of exact arithmetic minus eps.", "quantifier": "all sizes, all symmetric matrices and starting vectors in the class, all roundings of unit at most u0, all tolerances at least tol0, all iteration limits", "why_tests_cant": "rounding could in principle keep the stopping test from ever holding or turn the iterate away; a test samples matrices at one precision, the claim is uniform over the class and bounds the number of steps", "anchors": ["src/power_iteration.rs:power_iteration", "src/power_iteration.rs:power_iteration2", "src/power_iteration.rs:power_iteration3", "src/power_iteration.rs:power_iteration4"]}
{"id": "C119", "title": "spectral_fact undoes inverse_spectral_fact", "statement": "For every impulse response h that is its own minimum-phase factor, spectral_fact(inverse_spectral_fact(h)) returns h. (False of the code for every length >= 2: what spectral_fact returns, for every input whose spectrum does not vanish at the sampled frequencies, is the vector of the square roots of the absolute spectrum at n frequencies, so the round trip gives magnitudes of the frequency response of h instead of h; it panics on an empty input.)", "quantifier": "all lengths, all impulse responses whose frequency response does not vanish at the sampled frequencies", "why_tests_cant": "the one test in the file is not even marked as a test and is never compiled; a test of one filter would show a wrong number but not what is computed in general", "anchors": ["spectral_fact.rs:spectral_fact", "spectral_fact.rs:inverse_spectral_fact"]}
{"id": "C120", "title": "The quasiconvex example is solved in floating point of high enough precision", "statement": "For every accuracy eps there are a number of iterations, a tolerance and a unit roundoff such that in any arithmetic at least this accurate the cutting-plane optimizer run on the quasiconvex example from a start whose ellipsoid contains the unit disc around the maximiser (1/sqrt 2, 1/2) does not panic, ends with a value within eps of the optimum e^(-1/2)/sqrt 2 (from below always, from above when a point is returned), returns a point whenever it starts below that, and the point is within eps of the maximiser in both coordinates and feasible up to one rounding.", "quantifier": "all accuracies, all first ellipsoids within given bounds that contain the disc, all starting levels in [0, Gamma], all oracle counters, all roundings of the arithmetic with a small enough unit roundoff", "why_tests_cant": "the test runs one start in one arithmetic and compares one printed number; the claim is about every start and every sufficiently accurate arithmetic, including the rounding of exp", "anchors": ["src/quasicvx.rs:MyOracle", "src/cutting_plane.rs:cutting_plane_optim", "src/ell.rs:Ell"]}
{"id": "C121", "title": "Portfolio optimisation in floating point: a returned portfolio keeps the limits and has the reported return, up to a stated error", "statement": "With arithmetic that rounds each operation with relative error at most u: PortfolioOracle never panics and changes gamma only when it reports an improvement, which then lowers it. A portfolio x of n assets returned by cutting_plane_optim satisfies sum x_i <= budget + ((1+u)^n - 1) sum |x_i|, x'Rx <= max_risk + ((1+u)^(n^2+2) - 1) sum |x_i||R_ij||x_j|, and the final gamma differs from minus its expected return by at most ((1+u)^(n+1) - 1) sum |r_i||x_i|; gamma never ends above its starting value, and if no portfolio is returned it is unchanged.", "quantifier": "every rounding with unit u <= 1/8, every number of assets, all returns, risk matrices (symmetric or not), limits, starting ellipsoids and values, tolerances and iteration limits", "why_tests_cant": "the example prints one portfolio; how far the limits can be exceeded through rounding, for every size and all data, is a statement about all roundings", "anchors": ["examples/portfolio_optimization.rs:PortfolioOracle", "src/cutting_plane.rs:cutting_plane_optim", "src/ell.rs:Ell"]}
{"id": "C122", "title": "bsearch in IEEE-754 f64", "statement": "bsearch run in IEEE-754 binary64 (infinities, NaN, gradual underflow) on a finite interval l <= u whose difference does not overflow, with an oracle that does not panic there, does not panic; every probe is a finite number in [l, u]. After k probes the bracket left by the answers has width at most (9/16)^k (u - l) + (16/7)(2^-53 max(|l|,|u|) + 2^-1075); if it stopped before max_iters with a finite tolerance, the width is at most 4 tol. The flag is true exactly when the upper end has moved. For an oracle accepting exactly the numbers from a threshold on, the bracket encloses the threshold. bsearch panics when an end is NaN or l > u.", "quantifier": "every oracle (stateful or not), every finite interval whose difference does not overflow, every threshold, tolerance (NaN and infinite included) and iteration limit", "why_tests_cant": "rounding of each midpoint depends on the exact interval; subnormal and huge ends cannot be enumerated", "anchors": ["/repo/src/cutting_plane.rs: bsearch"]}
{"id": "C123", "title": "Within the range of f64, conjugate_gradient and the power iterations in IEEE-754 f64 are those rounded to 53 bits", "statement": "Take a square system, or a square matrix and a start vector, in IEEE-754 binary64 (infinities, NaN, gradual underflow) and the same numbers in arithmetic rounded to 53 bits without exponent limits. If nothing the method computes in the latter overflows, underflows or divides by zero, then conjugate_gradient returns in f64 the same error or number for number the same solution, and power_iteration, power_iteration2, power_iteration3 and power_iteration4 return the same value, iteration count and vector. Hence: an Ok(x) of conjugate_gradient in f64 has true residual at most tol (1 + 3(n+5)2^-53) + 4(k+1)(n+5)2^-53 (L X + |b|); when power_iteration stops early on a symmetric matrix in f64, a true eigenvalue lies within L((1 + 3(n+5)2^-53) tol + 7(n+5)2^-53) of the value returned. For 3x = 1 in f64 the answer Ok has residual 2^-54 for every positive tolerance.", "quantifier": "every dimension, matrix, right-hand side, start vector, tolerance and iteration limit for which the operations carried out stay in the normal range of f64", "why_tests_cant": "it relates every run in two arithmetics, operation by operation; a test observes one run in one of them", "anchors": ["/repo/src/conjugate_gradient.rs: conjugate_gradient", "/repo/src/power_iteration.rs: power_iteration, power_iteration2, power_iteration3, power_iteration4"]}
{"id": "C124", "title": "Within the range of f64, the LMI oracles in IEEE-754 f64 are those rounded to 53 bits", "statement": "Take the matrices of an LMI oracle and a query point in IEEE-754 binary64 (infinities, NaN, gradual underflow) and the same numbers in arithmetic rounded to 53 bits without exponent limits. If nothing that the oracle computes in the latter overflows, underflows or divides by zero (the entries, the rows of the factorisation up to the first rejected pivot, and then the witness and the quadratic forms), then LMIOracle, LMIOldOracle and LMI0Oracle give in f64 the same answer: they accept the same points, and otherwise return number for number the same gradient and offset, whatever earlier queries left in the storage. Hence a point x that cutting_plane_feas with LMIOracle and Ell returns in f64 after a run in range consists of finite numbers, and B - sum x_k F_k + 4 n (n+d+1) 2^-53 s I is positive definite when s bounds |B_ij| + sum |x_k F_k,ij|.", "quantifier": "every matrix size n, number of matrices d, data, query point, oracle state, ellipsoid, options and run for which the operations carried out stay in the normal range of f64", "why_tests_cant": "it relates every query in two arithmetics, operation by operation through the factorisation, and every run; a test observes one run in one of them", "anchors": ["/repo/src/oracles/lmi_oracle.rs: LMIOracle::assess_feas", "/repo/src/oracles/lmi_old_oracle.rs: LMIOldOracle::assess_feas", "/repo/src/oracles/lmi0_oracle.rs: LMI0Oracle::assess_feas", "/repo/src/oracles/ldlt_mgr.rs: LDLTMgr::factor, LDLTMgr::witness, LDLTMgr::sym_quad", "/repo/src/cutting_plane.rs: cutting_plane_feas"]}
{"id": "C125", "title": "Within the range of f64, updates and runs of EllStable in IEEE-754 f64 are those rounded to 53 bits", "statement": "In any arithmetic one update of EllStable (bias, central or discrete, one cut or two) computes, operation by operation, a forward substitution w, the sum omega of w_i m_ii w_i, a backward substitution h, the centre moved by rho/omega h, the diagonal multiplied by ratios of running sums and the rows above it changed by multiples of the products left below the diagonal; a cut that is not taken changes only tsq and the entries below the diagonal. Hence, if no operation of the update leaves the normal range of f64 in arithmetic rounded to 53 bits without exponent limits, the update in IEEE-754 binary64 gives the same status and number for number the same centre, factors, kappa and tsq; and cutting_plane_feas, cutting_plane_optim and cutting_plane_optim_q on EllStable whose steps stay in range return in f64 the same answer, best value and number of iterations.", "quantifier": "every dimension, stored factors, centre, cut of either kind, oracle, options and run for which the operations carried out stay in the normal range of f64", "why_tests_cant": "it relates every update and run in two arithmetics, operation by operation through both substitutions and the rank-one update; a test observes one run in one of them", "anchors": ["/repo/src/ell_stable.rs: EllStable::update_core, update_bias_cut, update_central_cut, update_q", "/repo/src/cutting_plane.rs: cutting_plane_feas, cutting_plane_optim, cutting_plane_optim_q"]}
{"id": "C126", "title": "Within the range of f64, filter design and classifier training in IEEE-754 f64 return usable answers", "statement": "A query of the low-pass oracle (feasibility or optimisation) and of the SVM oracle whose operations stay in the normal range of f64 gives in IEEE-754 binary64 the same cut, best value and next state as in arithmetic rounded to 53 bits. Hence cutting_plane_optim in f64 with the low-pass oracle, on Ell or EllStable, whose steps stay in range ends without a panic and reports a finite stopband bound never worse than the initial one; a returned filter has finite coefficients, meets every inequality of the specification with that bound up to an explicit rounding error and attains the bound up to that error. With the SVM oracle it ends without a panic and reports a finite value; a returned classifier has finite weights, and either the value is 0 and all margins are at least 1, or its smallest margin is the reported value below 1, up to an explicit rounding error.", "quantifier": "every specification, table, sample set, labels, search space of either kind, options and run for which the operations carried out stay in the normal range of f64", "why_tests_cant": "it bounds the error of every answer in f64 over every specification and data set; a test observes single runs and compares with another rounded number", "anchors": ["/repo/src/oracles/lowpass_oracle.rs: LowpassOracle::assess_feas, assess_optim", "/repo/src/oracles/svm_oracle.rs: SvmOracle::assess_optim", "/repo/src/cutting_plane.rs: cutting_plane_optim"]}
{"id": "C127", "title": "Maxcut in IEEE-754 f64: every query and every run, with no assumption on the points visited", "statement": "With finite weights of size at most 2^968, a query of MaxcutOracle in IEEE-754 binary64 never panics, at any point (infinities and NaN included) and for any current value (NaN and infinities included). The cut weight it computes is finite and is the true weight of the cut up to an explicit rounding error; improvement is reported exactly if it exceeds the current value, which it then replaces. The gradient is finite: minus twice the crossing weight at each vertex up to an explicit error. If the weights are integers and n^2 times the largest is at most 2^53, weight and gradient are exact. Every run of cutting_plane_optim in f64 ends without a panic, whatever rounding, overflow or NaN does to the search space; a returned vector chooses a cut whose weight is the reported number (exactly for such integers), which beats the starting value.", "quantifier": "every matrix of weights in the range, every vector of f64 numbers, every current value, every ellipsoid or other steady search space in any state, options", "why_tests_cant": "it covers all weights, NaN and infinite points and every state of the search space; a test sees a few graphs and compares with another rounded sum", "anchors": ["/repo/src/oracles/maxcut_oracle.rs: MaxcutOracle::assess_optim", "/repo/src/cutting_plane.rs: cutting_plane_optim"]}
{"id": "C128", "title": "The profit oracles in IEEE-754 f64: every query and every run, with range assumptions only on the data and the returned point", "statement": "In IEEE-754 binary64, for prices, costs and elasticities of ordinary size, the constructors of the profit oracles store rounded logarithms of the data, and every run of cutting_plane_optim (plain and robust oracle) or cutting_plane_optim_q (discrete oracle) ends without a panic, whatever overflow, underflow or NaN does to the search space on the way. Without a solution the starting value is returned unchanged. A returned point of finite numbers obeys the stored input limit. If it is of ordinary size, the reported profit is a finite number within an explicit rounding error of the true Cobb-Douglas profit at this point (for the robust oracle: with the worst elasticities at this point). The discrete oracle returns only rounded logarithms of positive integers. A query never panics at any point, NaN and infinities included.", "quantifier": "every profit data in the range, every point and current value (NaN and infinities included), every ellipsoid or other steady search space in any state, options", "why_tests_cant": "exp and ln overflow for far points and the search space may hold NaN; a test sees one data set and a handful of iterates", "anchors": ["/repo/src/oracles/profit_oracle.rs: ProfitOracle, ProfitRbOracle, ProfitOracleQ", "/repo/src/cutting_plane.rs: cutting_plane_optim, cutting_plane_optim_q"]}
{"id": "C129", "title": "The SVM oracle in IEEE-754 f64: every query and every run, with range assumptions only on the returned classifier", "statement": "A query of SvmOracle in IEEE-754 binary64 never panics, at any classifier (infinities and NaN included), always reports an improvement and leaves the oracle unchanged. Either it stops with value 0, and then no computed margin compares below 1; or its value is the computed margin of one sample, is below 1, and no computed margin compares below it, and the cut is minus label times sample. Every run of cutting_plane_optim in f64 ends without a panic, whatever rounding, overflow or NaN does to the search space; without a classifier the starting value is unchanged, and the computed margins of a returned classifier are as the reported value says. If the classifier is made of finite numbers of ordinary size, the value is finite and either is 0 with all true margins at least 1, or is the smallest true margin, up to an explicit rounding error, whatever the number of features.", "quantifier": "every data set with i32 labels, every vector of f64 numbers, every current value, every ellipsoid or other steady search space in any state, options", "why_tests_cant": "comparisons with NaN and overflowing sums decide which sample is chosen; a test sees a few data sets", "anchors": ["/repo/src/oracles/svm_oracle.rs: SvmOracle::assess_optim", "/repo/src/cutting_plane.rs: cutting_plane_optim"]}
{"id": "C130", "title": "The low-pass oracle in IEEE-754 f64: every query and every run, with range assumptions only on the returned filter", "statement": "The constructor of LowpassOracle in IEEE-754 binary64, for at least one tap and band edges 0 <= wpass <= wstop <= 1, never panics and sets up the design problem on 15 n grid points with a finite table that is right up to an explicit rounding error, and with the pass- and stopband at the given edges up to a relative 2^-53. A feasibility query of LowpassOracle in IEEE-754 binary64 never panics, at any point of the right length (infinities and NaN included), and accepts the point exactly if no test of the specification fails for the computed responses. An optimisation query panics exactly if no test fails and every computed stopband response is a NaN (an empty stopband included); otherwise it reports improvement exactly if no test fails, and the new bound is then the largest computed stopband response and not a NaN. Every run of cutting_plane_feas in f64 ends without a panic, whatever rounding, overflow or NaN does to the search space, and a returned filter fails no test. A run of cutting_plane_optim panics only at a centre all of whose computed stopband responses are NaN; otherwise the bound never becomes larger, is unchanged without a filter, and is the largest computed stopband response of the returned filter, which fails no test. If the returned filter is made of finite numbers of ordinary size it meets the true specification with the reported bound, and attains that bound at a stopband frequency, up to an explicit rounding error, whatever the number of taps. BSearchAdaptor's level is ignored by the oracle: every level gets the answer of a plain run of cutting_plane_feas.", "quantifier": "every table, band edges, bounds and hidden counters of the oracle, every vector of f64 numbers, every current bound, every ellipsoid or other steady search space in any state, options", "why_tests_cant": "comparisons with NaN and overflowing sums decide which test fails and which stopband value is the largest; a test sees a few filters", "anchors": ["/repo/src/oracles/lowpass_oracle.rs: LowpassOracle::new, assess_feas, assess_optim", "/repo/src/cutting_plane.rs: cutting_plane_feas, cutting_plane_optim"]}
{"id": "C131", "title": "The portfolio example in IEEE-754 f64: every query and every run, with range assumptions only on the returned portfolio", "statement": "A query of the portfolio example's oracle never panics, in any arithmetic and at any point of the right length (infinities and NaN included), and leaves its data unchanged. It reports an improvement exactly if the computed amount and the computed risk violate no limit and the computed negated return compares below the current value, and that is then the new value; otherwise the value is unchanged. The cut is that of the budget if it is violated, else that of the risk limit if that is violated, with the amount of violation as its offset. Every run of cutting_plane_optim with it in IEEE-754 binary64 ends without a panic, whatever rounding, overflow or NaN does to the search space; without a portfolio the value is unchanged; a returned portfolio violates no limit as far as computed, its computed negated return is the final value, and this is below the starting value. If data and portfolio are finite and of ordinary size, the budget and the risk limit are kept and the reported return is the true one up to an explicit rounding error, whatever the number of assets.", "quantifier": "every number of assets, data, point of f64 numbers, current value, ellipsoid or other steady search space in any state, options", "why_tests_cant": "the comparisons depend on rounding, overflow and NaN in sums of n and n^2 terms; a test sees a few portfolios", "anchors": ["/repo/examples/portfolio_optimization.rs: PortfolioOracle::assess_optim", "/repo/src/cutting_plane.rs: cutting_plane_optim"]}
{"id": "C132", "title": "The quasiconvex oracle in IEEE-754 f64: every query and every run, with range assumptions only on the returned point", "statement": "A query of the quasiconvex example's oracle never panics, in any arithmetic and at any point of length 2 (infinities and NaN included). It reports an improvement exactly if neither its constraint test nor its level test fails, and the new value is then the computed a / exp b of the point (a, b); otherwise the value is unchanged and the cut is that of a failed test with the computed violation, which is positive, as its offset. Every run of cutting_plane_optim with it in IEEE-754 binary64 ends without a panic, whatever rounding, overflow or NaN does to the search space; without a point the value is unchanged; a returned point fails no constraint test and its computed value is the final one. If it is finite and of ordinary size, (1 - 2^-53) a^2 <= b holds and the final value is finite and a / exp b up to a relative error of 3 * 2^-53. An improvement at such a point over a value of ordinary size that is not negative is at least (1 - 2^-53)^2 times that value.", "quantifier": "every position of the round robin, point of f64 numbers, current value, ellipsoid or other steady search space in any state, options", "why_tests_cant": "the tests depend on rounding, overflow and NaN in the product and the exponential; a test sees one run", "anchors": ["/repo/src/quasicvx.rs: MyOracle::assess_optim", "/repo/src/cutting_plane.rs: cutting_plane_optim"]}
{"id": "C133", "title": "The LMI oracles in IEEE-754 f64: every query and every run, with range assumptions only on the returned point", "statement": "A query of LMIOracle or LMIOldOracle never panics, in any arithmetic and at any point of the right length (infinities and NaN included), whatever earlier queries left in the factorisation manager, and leaves the matrices unchanged. The point is accepted exactly if factoring the computed B - sum x_k F_k meets no pivot that compares as <= 0; otherwise the offset is the first such pivot negated and the gradient entries are the computed quadratic forms of the F_k at the vector of the back substitution. Both oracles give the same answers. Every run of cutting_plane_feas with either ends without a panic, whatever rounding, overflow or NaN does to the search space, and the point returned passes that test. If factoring there stays in the range of f64 and the matrices are symmetric, the true matrix plus 4 n (n + d + 1) 2^-53 s times the identity is positive definite, where s bounds |B_ij| + sum_k |x_k (F_k)_ij|. The homogeneous oracle LMI0Oracle answers in the same way about sum x_k F_k, with the gradient negated.", "quantifier": "every size, number of matrices, matrices and points of numbers of any arithmetic, state of the manager, steady search space in any state, options", "why_tests_cant": "the pivots depend on rounding, overflow and NaN for every matrix and point; a test sees one run", "anchors": ["/repo/src/oracles/lmi_oracle.rs: LMIOracle::assess_feas", "/repo/src/oracles/lmi_old_oracle.rs: LMIOldOracle::assess_feas", "/repo/src/oracles/lmi0_oracle.rs: LMI0Oracle::assess_feas", "/repo/src/oracles/ldlt_mgr.rs: LDLTMgr::factor, witness, sym_quad", "/repo/src/cutting_plane.rs: cutting_plane_feas"]}
