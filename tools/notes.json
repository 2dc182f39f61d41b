{
 "C53": {
  "status": "partial",
  "note": "False of the code for beta < -tau/n: the two refutation theorems show every such cut is mishandled (NoSoln although the whole ellipsoid satisfies the cut; points lost). The _partial theorem proves the remaining range and that update_q is safe for every beta."
 },
 "C32": {
  "status": "partial",
  "note": "False of the code: a zero pivot restarts the factorisation and the coupling to earlier rows is ignored, so e.g. every matrix with zero diagonal is accepted (C32_zero_diagonal_accepted, C32_true_does_not_imply_psd). Proved: every positive semidefinite matrix is accepted, and every rejection comes with a correct witness. C32_accepted_iff says exactly which matrices are accepted: those that split into consecutive diagonal blocks, each positive definite up to its last row and singular there (the last block may be positive definite throughout); the entries outside the blocks do not matter."
 },
 "C36": {
  "note": "C36_lmi_solved_explicit gives numbers: tolerance up to lambda^2 where the matrix at the centre of the ball dominates lambda I, iterations above (d+1) ln(det(kappa M)/r^(2d)). C36_lmi_solved needs no lambda but its tolerance is existential."
 },
 "C39": {
  "status": "partial",
  "note": "False of the code: with an exact starting point the breakdown test on p^T A p fires and the call returns an error (C39_exact_start_rejected). The _partial theorem proves the call never returns a wrong answer there."
 },
 "C40": {
  "note": "Proved for power_iteration, 2 and 4. power_iteration3 is outside the statement: C40_power_iteration3_partial and C40_power3_not_unit show what holds and that its vector need not be normalised when the limit is reached."
 },
 "C49": {
  "status": "partial",
  "note": "The integer-rounding and feasibility half is proved. The shifted cut is false of the code: the shift has the wrong sign (C49_shift_sign_wrong exhibits a better integer point that the alternative cut removes). Whole runs: C49_discrete_run_partial."
 },
 "C47": {
  "status": "partial",
  "note": "False of the code: delta1 is negative, so the lower passband bound is about 162 and the upper about 0.006; C47_case_infeasible and C47_case_never_solved prove that no filter is ever accepted. The _partial theorem proves that construction succeeds and which problem it sets up."
 },
 "C46": {
  "note": "Optimisation mode needs a nonempty stopband; C46_lowpass_empty_stopband proves the panic otherwise."
 },
 "C28": {
  "status": "partial",
  "note": "False of the code: the rank-one update of the factors reads scratch values, so the matrix stays diagonal forever (C28_stable_stays_diagonal), points the cut keeps are lost (C28_stable_loses_points), tsq differs from Ell at the second step (C28_stable_differs_from_ell) and a run with an honest oracle wrongly reports no solution (C28_stable_wrong_infeasible). Proved partial: each single step from a diagonal matrix agrees with Ell in status, centre, tsq, kappa and volume, and completely for gradients along one axis. C28_stable_axis_run_partial and C28_stable_axis_central_partial: for sequences of any length in which every gradient is a multiple of a unit vector the two agree in everything after every step."
 },
 "C74": {
  "status": "partial",
  "note": "The last clause (gamma ends as the cost of the returned point) is false of the code: gamma is overwritten with the cost of a point whose other constraints have not been tested yet (C74_value_overwritten), and a run can then lose every solution (C74_loses_solutions). Proved: everything else, with gamma' <= cost of the returned point instead of equality."
 },
 "C75": {
  "status": "partial",
  "note": "The last clause (with enough iterations the return is as good as that of a ball of feasible portfolios) is false of the code: a feasible point that is no improvement gets a zero gradient, which ends the run (C75_stops_at_feasible_points), and the shipped example returns the zero portfolio in exact arithmetic (C75_example_returns_zero). Proved: everything else, and the last clause unless tsq() == 0 at the end (C75_near_optimal_partial)."
 },
 "C83": {
  "status": "partial",
  "note": "Proved in full for MyOracle2. For MyQuasicvxOracle false of the code at feasible points with x = 0 (its comment says such points violate x > 0, the code tests -x > 0): the gradient is -0.5/0, and a run started there returns a point made of NaN (C83_quasicvx2_zero, C83_quasicvx2_zero_run, in checked arithmetic). The _partial theorems prove everything for queries elsewhere."
 },
 "C84": {
  "status": "partial",
  "note": "False of the code for parallel cuts with beta0 <= beta1 < -tau, which miss the ellipsoid but are reported as Success (C84_missed_parallel_cut_succeeds). The _partial theorem proves it for all other cuts, in particular all single cuts and all parallel cuts with beta1 >= 0."
 },
 "C85": {
  "status": "proved",
  "note": "In arithmetic without rounding, with the infinities of IEEE 754; a finite operation never overflows to an infinity there. MyLmi (tests/lmi_tests.rs), which also starts at f64::INFINITY, is not covered."
 },
 "C86": {
  "status": "proved",
  "note": "Rounding model: relative error u per operation, monotone, unbounded exponent range (no overflow or underflow). C86_exact_feasibility_fails shows that the margin cannot be dropped."
 },
 "C87": {
  "status": "proved",
  "note": "C87_stable_long_gradient_ignored records a difference from Ell, which panics (C11_bad_gradient_panics)."
 },
 "C88": {
  "status": "proved",
  "note": "Rounding model as in C71 and C86; cos is taken to be correctly rounded up to relative error u."
 },
 "C89": {
  "status": "proved",
  "note": "Not covered: a central cut with two planes, whose strategy does not use the constant 1/0."
 },
 "C90": {
  "status": "proved",
  "note": "Ell only; the iterates of EllStable differ from those of Ell (C28)."
 },
 "C91": {
  "status": "proved",
  "note": "The comment in the file says that MyOracleOptim minimises x + y; the code maximises it."
 },
 "C92": {
  "status": "proved",
  "note": "Dimension one, which the quickcheck generators also draw, is excluded: there delta is infinite (C89), and the sampled property delta > 0 holds only because infinity is positive."
 },
 "C93": {
  "status": "proved",
  "note": "Rounding without overflow or underflow (relative-error model of Spec/Rounded). Labels are assumed representable, which holds for ±1."
 },
 "C94": {
  "status": "proved",
  "note": "Rounding without overflow or underflow. The rounded gradient is only shown to be a vector of the right length."
 },
 "C95": {
  "status": "proved",
  "note": "exp and ln are assumed correctly rounded (relative error u); no overflow or underflow. When gamma + cost <= 0 the code computes ln of a non-positive number (NaN, and the point is accepted) where the model's logarithm is a real number; the comparison claims therefore assume gamma >= 0. The offset and gradient of a rejecting cut are not bounded."
 },
 "C96": {
  "status": "proved",
  "note": "Rounding without overflow or underflow. The update only reads and writes the diagonal in effect: from a diagonal start the code never leaves diagonal matrices. Accuracy against the exact update is proved for central cuts; for deep cuts positivity is proved."
 },
 "C97": {
  "status": "proved",
  "note": "Rounding without overflow or underflow. A zero returned vector is the model's stand-in for the NaN the code gets from 0/0. The residual after an early stop is proved for power_iteration."
 },
 "C98": {
  "status": "proved",
  "note": "Rounding without overflow or underflow. The bound is in terms of the size of the iterates actually made; that they stay bounded for a positive definite system in rounded arithmetic is not proved."
 },
 "C99": {
  "status": "proved",
  "note": "Ell and EllStable. +, -, *, / and sqrt are the IEEE operations; exp, ln, cos and log10 are taken as correctly rounded and are not used by these theorems. One NaN."
 },
 "C100": {
  "status": "proved",
  "note": "power_iteration3 and power_iteration4 scale by the largest entry and are not covered."
 },
 "C101": {
  "status": "proved",
  "note": "ell1d.rs is not declared in lib.rs and is written for an older SearchSpace trait; the model reads it as it stands and adapts it to today's trait by storing tsq."
 },
 "C102": {
  "status": "proved",
  "note": "spectral_fact itself calls FFT functions outside the repository and is not modelled."
 },
 "C103": {
  "status": "proved",
  "note": "Complements C71_posDef_lost: without a bound on the condition a cut in f64 can make the matrix singular. Overflow and underflow are outside Fl (see C99). Parallel cuts are C110; C103_step_any_flag covers no_defer_trick = true."
 },
 "C104": {
  "status": "proved",
  "note": "Floating-point counterpart of C22. For deep cuts the precision that the explicit condition asks for grows with the number of cuts and is above 53 bits except for short runs; for central cuts f64 is enough for an example (C104_disc_f64). Overflow and underflow are outside Fl (see C99). Both settings of no_defer_trick are covered, parallel cuts are C110. C104_margin replaces the lower bound on the gradients by a margin of the cuts at one interior point."
 },
 "C105": {
  "status": "proved",
  "note": "Floating-point counterpart of C25. As in C104 the explicit condition asks for far more than 53 bits when cuts may be deep; for central cuts of the unit disc 53 bits are shown to suffice (C105_disc_f64). Overflow and underflow are not covered; parallel cuts are C112."
 },
 "C106": {
  "status": "proved",
  "note": "The ambiguity of NumericalInstability messages is C106_instability_ambiguous. Printing of f64 is a parameter."
 },
 "C107": {
  "status": "proved",
  "note": "Floating-point counterpart of C65. The caller cannot see the level t (C08: the interval is not written back). Overflow and underflow are not covered."
 },
 "C108": {
  "status": "proved",
  "note": "Exact counterpart: C36. The margin replaces the bound on the gradient. Overflow and underflow are not covered."
 },
 "C109": {
  "status": "proved",
  "note": "The range conditions are stated on the run in Fl bin53 and follow the code operation by operation. EllStable, cutting_plane_optim_q and bsearch are not related."
 },
 "C110": {
  "status": "proved",
  "note": "u0 is obtained by continuity; ParPlan.EnoughPrecision states the explicit condition on u. The step theorem covers deep, nondeep and central cuts; the optimisation loop is C112. The exponent range is unlimited (C109 relates runs in range to f64)."
 },
 "C111": {
  "status": "proved",
  "note": "Feasibility version of the design problem; the optimisation version is C112."
 },
 "C112": {
  "status": "proved",
  "note": "u0 is obtained by continuity; the exponent range is unlimited (C109 relates runs in range to f64). cutting_plane_optim_q with parallel cuts is not covered in rounded arithmetic."
 },
 "C113": {
  "status": "proved",
  "note": "Positive semidefiniteness is needed: C79_rayleigh_stop_wrong is a wrong early stop of power_iteration2 and power_iteration3 on an indefinite matrix."
 },
 "C114": {
  "status": "proved",
  "note": "Overflow and underflow are outside the rounding model (C109 relates f64 runs within range to it)."
 },
 "C115": {
  "status": "proved",
  "note": "The unit u0 depends on the data the oracle stores; for ProfitRbOracle these are the rounded price - e3, limit - e4 and cost + e5. The worst elasticities at the returned point are taken as computed (rounded). Overflow and underflow are outside the rounding model."
 },
 "C116": {
  "status": "proved",
  "note": "The unit u0 is not computed; it depends on the class only. The hypothesis that the initial residual is not small is needed: from an exact solution the code reports breakdown (C39). Overflow and underflow are outside the rounding model."
 },
 "C117": {
  "status": "proved",
  "note": "The arithmetic is any type with the operations of the model; sums are taken left to right from zero, as in the model of ndarray."
 },
 "C118": {
  "status": "proved",
  "note": "N and u0 are not computed; they depend on the class only. Overflow and underflow are outside the rounding model. As in exact arithmetic (C79) the tolerance alone does not bound the error for the variants that compare estimates."
 },
 "C119": {
  "status": "partial",
  "note": "The claim is false of the code: C119_not_inverse for every length >= 2. Proved: exactly what is computed (C119_values, C119_round_trip), and the claim for one positive tap (C119_inverse_partial). The file is not compiled in the crate; fft/ifft are read as the exact transforms."
 },
 "C120": {
  "status": "proved",
  "note": "Existence of the roundoff is proved, not its size; no overflow in the arithmetic model."
 },
 "C121": {
  "status": "proved",
  "note": "Soundness of what is returned; that a good portfolio is returned is false even in exact arithmetic (C75)."
 },
 "C122": {
  "status": "proved",
  "note": "Intervals whose difference overflows are excluded; the widths are those of the bracket left by the recorded answers."
 },
 "C123": {
  "status": "proved",
  "note": "The range hypothesis is stated on the run in 53-bit arithmetic, operation by operation."
 },
 "C124": {
  "status": "proved",
  "note": "The range hypothesis is stated on the run in 53-bit arithmetic, operation by operation."
 },
 "C125": {
  "status": "proved",
  "note": "The range hypothesis is stated on the run in 53-bit arithmetic, operation by operation."
 },
 "C126": {
  "status": "proved",
  "note": "The range hypothesis is stated on the run in 53-bit arithmetic, operation by operation; the table of cosines may be wrong by a relative amount that enters the error."
 },
 "C127": {
  "status": "proved",
  "note": "No range hypothesis on the run: only the weights are bounded."
 },
 "C128": {
  "status": "proved",
  "note": "exp, ln and round are taken to be correctly rounded. Range hypotheses only on the data and the returned point."
 },
 "C129": {
  "status": "proved",
  "note": "A NaN margin compares below nothing, so a classifier with NaN margins passes (C81)."
 },
 "C130": {
  "status": "proved",
  "note": "A NaN response fails no test, so a filter of NaNs is accepted by the feasibility oracle (C81) and makes the optimisation oracle panic."
 },
 "C131": {
  "status": "proved",
  "note": "A NaN amount or risk violates no limit, but the comparison of a NaN return with the current value fails, so it is never reported as an improvement."
 },
 "C132": {
  "status": "proved",
  "note": "A NaN fails no test, so a point with a NaN may be returned (C81)."
 },
 "C133": {
  "status": "proved",
  "note": "A NaN pivot compares as not <= 0, so a point with a NaN is accepted (C81)."
 }
}