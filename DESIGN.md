# Formal model of proadv in Lean 4 — design

## 1. Number model

Every function is modelled once, over an abstract float type `F` with a *law-free* type class
`PyNum F` (`Verif/Py/Num.lean`): `add sub mul div neg abs lt le eq isNaN nan ofRat around castInt sum npow`,
extended by `PyMath F` (`sqrt log exp sin cos tan arctan arctan2 erf erfc rpow pi`).
No algebraic law is assumed, so IEEE double arithmetic with any rounding and any summation order
(numpy's pairwise sum) is one instance.

* **Structural theorems** (lengths, untouched samples, index sets, control flow, error behaviour) are proved for
  *every* `F` with `[PyNum F]`/`[PyMath F]`: they hold for real float64.
* **Value theorems** are proved for `Fl K` = exact field elements plus `nan`, `+inf`, `-inf` with the IEEE rules for the
  special values (`Fl ℚ` executable, `Fl ℝ` with the transcendental functions), or for a plain ordered field / `ℂ`
  where the special values play no role (stated at each definition). Rounding error of binary64 is not modelled there.
* **Rounding theorems** (C139–C142, C214–C217, and every later theorem that mentions an arithmetic `A`) evaluate the same definitions in `Rd A` (`Verif/Py/Round.lean`): the values of `Fl K` with
  every operation rounded. They assume the standard model `Std A u` (relative error at most `u` per operation, `np.sum` off by
  at most `((1+u)^n - 1) Σ|x|`). `bin64` (53-bit significands, ties to even, unbounded exponent, left-to-right sums) is shown to
  satisfy it with `u = 2⁻⁵³`. C214–C217 assume instead `Rounding fl u` (`Verif/Lemmas/RoundMono.lean`: monotone, idempotent,
  relative error at most `u`; C215–C217 also exact on a few literals, C215 and C217 symmetric), which binary64 rounding is shown to satisfy.
  C214 uses a copy of the `brentq` model with each operation rounded, which equals the exact model when nothing is rounded.
  C246 and C247 are about all arithmetics with `Std A u` and small enough `u` (`Verif/Py/Fine.lean`); no particular `u` is computed, so they do not
  say that binary64 is accurate enough for a given recording.
* **Underflow theorems** (C234, C235, C237) use `Rd A` with the contract `Gradual A u η Rep`: relative error `u` for sums and differences of storable numbers, `u |x| + η` for everything else; `bin64g` (53 bits, no finer than `2⁻¹⁰⁷⁴`) meets it. For `sqrt` (C237) the instance is over the reals (`Verif/Py/RoundReal.lean`): the exact root, rounded once; `KeepsSign A` says that rounding and summation keep non-negative numbers non-negative.
* **Overflow theorems** (C223) evaluate them in `Ov O`: as `Rd A`, but a rounded result above `O.top` becomes an infinity. Contract `OStd O u`: that of `Rd`, plus: a finite sum is the sum of finite terms
  and the one `Rd` computes, and a sum whose terms are small enough does not overflow. Binary64 with left-to-right sums is an instance (`bin64o`).
  `OGrad` (`Verif/Py/Full.lean`) is this contract and that of gradual underflow at once; binary64 with subnormal numbers and infinities is an instance (`bin64f`).
* `Float` appears only in `Verif/Tests.lean`, which runs the model on the docstring examples (tests of the
  transcription, not proofs).

Exceptions are values: `Except PyErr α`. Arrays are `Arr F` = (ndim, is-integer-dtype, data); stores into integer
arrays truncate. Python indices are `Int`, negative ones wrap, out of range ones raise `IndexError`.

## 2. Layout

`Verif/Py/*` number and array layer · `Verif/Model/*` the model, one file per /repo module (or group of modules), every
definition cites file and lines · `Verif/Spec/*` small independent specifications · `Verif/Lemmas/*` helper proofs ·
`Verif/Props/*` the property theorems (named `C<id>_…`), local specifications (namespace `Spec`) and concrete cases ·
`Verif/Tests.lean` docstring examples · `properties.jsonl` the claims in API terms · `MANIFEST.json` claim → theorems ·
`AXIOMS.md` claim theorem → axioms · `seeded/LOG.jsonl` mutation log.

## 3. Per-property plan

| properties | modelled | proof |
|---|---|---|
| C01–C06 | `descriptive.py` all five functions | case split on the guards; folds; sorting/permutation lemmas; C03: negation by witness + partial |
| C07–C11 | `spread.py`, `moment.py` over `Fl ℝ` | sum algebra, Cauchy–Schwarz for Pearson's inequality |
| C12–C17 | `series.py` averages | induction over the loop; refinement to window mean; NaN absorption |
| C18–C20 | `kalman_filter`, 1×1 matrices as scalars | invariant over the measurement history |
| C21–C23 | `_diagonal_average`, `ssa` with the eigen-solver as a parameter | index arithmetic; Hankel identity |
| C24–C26 | `fluid.py` | sum algebra, sums of squares |
| C27–C29 | `synthetic.py` with the random stream as a parameter, loop with fuel | invariant; pigeonhole for divergence |
| C30, C126–C131 | `spectrum.py`; `hann` and `welch` written out | arithmetic; finite Fourier sums, orthogonality of roots of unity, reflection of sums |
| C31–C35, C107 | `normal.py` over `Fl ℝ`, `erf` defined as the Gaussian integral | integral identities against Mathlib's `gaussianReal` |
| C36–C43 | `optimize.py` loops as iterated steps over an ordered field | loop invariants, IVT |
| C44–C58 | `replacements.py`; scipy spline and regression are parameters (the regression is instantiated in C204, C205) | induction on the spike list |
| C59–C75, C77–C79, C103–C106 | detectors | characterisations, symmetry by equivariance of the whole pipeline |
| C76, C80–C82, C108 | `bivariatekernel.py`, `trivariatekernel.py`; density estimate and Cholesky are parameters | search loops, trigonometry, argument of a complex number |
| C83–C90, C109–C110 | `kernel/bivariate.py`; brentq/fminbound of scipy are parameters, `np.fft.fft` is its defining sum | counting, floor/ceil arithmetic, finite Fourier sums, structural recursion |
| C91–C102 | `butter.py` design over ℂ, square root is any `r` with `r²=x` | products over lists, roots of unity, Möbius maps |
| C111–C114 | `butter.py` second-order sections, `argsort` is any index permutation | multiset of remaining roots as loop invariant |
| C120–C122 | `spherical.py` rounding included, samples to indices | case analysis of NaN propagation, rounding bounds |
| C132–C133 | `kalman_filter` in the long run | contraction of the gain recursion, superposition by induction |
| C136–C137 | `phasespace_thresholding` with its rounded derivatives | rounding to zero, NaN comparisons, scaling of every intermediate value |
| C138 | `kalman_filter` on arrays of any shape | shape bookkeeping through the monad, induction on the measurements |
| C139–C142 | averages, `mean`, `variance` with rounding | error recurrences, concrete binary64 runs for all lengths |
| C143–C149 | `examples/filtration/*.py`: detection and replacement loops | loop induction, frame conditions, equivariance of rounds |
| C150–C153 | `ssa` and its replacement: energy, independence of eigenvector conventions, long windows | Bessel inequality, Cauchy–Schwarz over anti-diagonals, reindexing |
| C154 | `brentq`: worst-case number of iterations | potential (bracket width, last two steps), induction on fuel |
| C155–C156 | `fminbound`: worst-case number of evaluations, accuracy on unimodal targets | bracket width as variant, bracket contains the minimiser |
| C134 | `acceleration_thresholding`, number of flags | one-sided Chebyshev (Cantelli) inequality |
| C135 | `velocity_correlation` under permutations | invariance of moments under `List.Perm` |
| C123 | `mean` on a string, read character by character | induction on the characters |
| C124 | `xyz_to_ptf` with 2-D zeros | products over lists, witness for the negation |
| C125 | `polynomial_replacement` with a least-squares contract on the regression | induction on the spikes; uniqueness of interpolation |
| C115–C119 | `trivariatekernel` from samples to indices, scipy's kernel estimate and 2×2 Cholesky written out | determinants, Gaussian integrals, rotation invariance of the determinant, translation and scaling equivariance |
| C157–C159 | optimality of mean and median, Samuelson-type bounds on std, skewness and kurtosis, pooled statistics | counting around the median, Cauchy–Schwarz, a cubic that is non-negative on the possible deviations |
| C160–C162 | `moving_average`, `exponential_moving_average`, `weighted_moving_average`: superposition, causality in every arithmetic, lag on a trend | closed forms of C12, C15, C17; induction over the loops |
| C163–C164 | `fminbound` and `brentq` under changes of units and reflection | simulation relation between the two runs |
| C165 | `reynolds_stresses` and `kinetic_turbulent_energy` in an arbitrary frame | covariances as matrix product A R Aᵀ, determinants |
| C166–C168 | `butterworth`: complementary filters, exact half-power band, monotone gain, effect of the order | C100 and strict monotonicity of the normalised frequency and of tan |
| C169 | `normal`: pdf as derivative of cdf, limits, tail bounds | fundamental theorem of calculus, sign of derivatives and limits at infinity |
| C170–C171 | `linear_interpolation`: dependence on spike values, repetition, reversal, units | unique characterisation of the filled series by its runs |
| C172 | `skewtest`, `kurtotest`: the statistics before the p-value (D'Agostino 1970, Anscombe & Glynn 1983) | closed forms in reals (arsinh, real powers), signs of the constants for all n, strict monotonicity, degenerate sizes |
| C173, C174 | `bivariate_kernel`: sample order, repetition, units, bandwidth sign, coordinate exchange; large-bandwidth limit | equality of the binned histogram, algebra of the transform; limit of the exponential weights |
| C175–C178 | `main` of the seven programs of `examples/signal` (Model/SignalPrograms) | composition with C12–C17, C162, C23, C27, C29, C126–C129; induction on the filter with the invariant p >= 0.375; real logarithms |
| C179 | `median`, `mean`, `median_value`, `mean_value`, `last_valid_data` under outliers | counting argument on the two halves of the median; solving for the sample that moves the mean; carry-forward characterisation C45 |
| C180–C181 | `moving_average`, `exponential_moving_average`, `weighted_moving_average`: monotone trends, step bounds, non-expansiveness | one-step difference formulas (telescoping sums); linearity C160 with the range theorems |
| C182–C186 | missing samples (NaN) in averages, Kalman filter, statistics, replacements and detectors | induction over the loops; NaN propagation lemmas; reduction of `linear_interpolation` to the finite case by filling gaps with the mean |
| C187, C188 | `polynomial_replacement` with the least-squares contract: closed form of the values, uniqueness, superposition, noise gain | normal equations; reproducing weights; induction on the spikes |
| C189, C190 | `kalman_filter`, `moving_average`, `exponential_moving_average`, `weighted_moving_average`: the outputs as solutions of least-squares problems | forward induction, completing the square |
| C191–C193 | `butterworth`: units, spectral inversion, frequency scaling | algebra on the transfer function; root lists for low/high pass |
| C194, C195 | `kalman_filter` on numbers and 1-D arrays, `trivariatekernel._type` | shape bookkeeping through the monad, induction on the measurements; cases over all element types |
| C196–C201 | response of the detectors to a spike of growing height; number of samples flagged | covariances of a series with one sample changed, continuity at 1/M = 0, Markov counting |
| C202, C203 | statistics, averages, Kalman filter, detectors and two replacements with infinite samples | the sum of a list with an infinity is that infinity or NaN, so a NaN occurs among the deviations from the mean; recurrences by induction with the special values computed; counting in the sorted list for the median |
| C204, C205 | `_create_model` over the reals, written out from the documentation of the libraries it calls; `polynomial_replacement` with it | normal equations and orthogonality to the kernel characterise the least-norm solution; centring splits the sum of squares; induction on the spike list |
| C206 | the recursions of both filters run side by side; contraction of covariance and estimates with exactly cancelling constants | induction on the data |
| C207, C208 | an explicit linear combination of the 24 spline equations eliminates all coefficients | `linear_combination`, `linarith` over 24 generalised ordinates |
| C209 | columns of two eigenvector matrices for a simple eigenvalue agree up to sign, columns for eigenvalue 0 annihilate the trajectory matrix; existence by the spectral theorem; two-by-two counterexample | linear algebra |
| C210 | a column not orthogonal to the alternating vector alternates; its mobility exceeds that of the reference sine (π/5 < 1/√2 with room for the rounding) | linear algebra, estimates |
| C211 | the trailing mean does not change when the sample entering equals the one leaving; sum of equally spaced cosines | induction |
| C212 | the stationary sinusoid solves the recursion; the difference contracts by 1 − alpha | induction, monotone cosine |
| C213 | a flagged sample has squared elliptical distance above 1 in some plane; the sums of these distances are known exactly | Chebyshev counting in each plane, union bound |
| C214 | `Model/BrentRnd.lean`: `brentq` with each operation rounded by `fl`; contract `Rounding fl u`; an accepted interpolation step is shorter than the bisection step up to rounding and rounds into the bracket | monotone rounding, case analysis |
| C215 | the model of `fminbound` at `Rd A`; the tolerance `ε·abs(x)` exceeds the rounding error of the midpoint, so the loop condition leaves room for one step | error estimates linear in the tolerance |
| C216 | the scalar Kalman model at `Rd A`; `P fl(1/S) ≤ 1 + u` rounds to at most 1, so gains stay in [0, 1] | monotone rounding, induction over the samples |
| C217 | block values of `linear_interpolation` and `npMedian` at `Rd A` | monotone rounding; `(1+u)³ (n-1) ≤ n` |
| C218 | `ssa`: distance of the filtered signal from the input | complement projection, Cauchy-Schwarz along anti-diagonals, energy along an eigenvector = eigenvalue |
| C219 | all replacements but the polynomial one: the list of spikes in any order | pointwise result of independent writes; runs cover fewer positions than there are spikes when a step goes down (pigeonhole) |
| C220 | `spherical_phasespace_thresholding` on a series with one high spike | limits of all rounded quantities divided by the height; the rotation angle rounds to 0; comparison of the limit point with the limit ellipsoid; 12 ln n < n from n = 46 on |
| C221 | all replacements but the polynomial one: negative indices | index normalisation commutes with reads and writes of arrays of equal length; the weighted average is shorter than the record, so its end-relative index is shifted by the period |
| C222 | `root`, `_evolve`, `_func`: the equation of the bandwidth search | induction over the recursion: every functional is, up to sign, positive, continuous and strictly decreasing in the guess; intermediate value theorem on the first bracket that works |
| C223 | overflow in means, `variance`, moving averages, `kalman_filter` | simulation: an overflowing value is a non-number or equals the value of the rounding instance, whose error bounds then apply; binary64 witnesses by kernel evaluation and induction over the length |
| C224 | `kernel` (trivariate): order of the samples | sums, extremes and the Gaussian estimate are invariant under permutations; the flag depends on the pair only |
| C225 | `moving_average` of fixed-width integers | the accumulated wrap-around is carried through the recurrence; each wrapped difference is ±2^b off |
| C226 | `acceleration_thresholding`, `calculate_derivatives`, `_derivatives` of fixed-width integers | the wrapped value is the unique representable number in the residue class |
| C227 | `velocity_correlation`: order of the arguments | axes and angle of a pair are symmetric when the covariance is 0 or the variances agree; a small factor on one component drives the discriminant of the swapped pair negative |
| C228 | `spherical_phasespace_thresholding` of a reversed recording | gradients change sign, second gradients do not; the angle is the argument of a conjugate complex number; one recording evaluated exactly |
| C229 | `weighted_moving_average` of a sinusoid | real part of a geometric-type sum; a zero of H on the unit circle would contradict increasing weights (multiply by 1 - z) |
| C230 | `ssa`: reversal, sign, units | reversal conjugates the lag matrix by the exchange matrix; with simple non-zero eigenvalues the two eigenvector sets agree up to sign and order |
| C231 | `phasespace_thresholding` of fixed-width integers | products bounded by M² stay in range; a wrapped first difference dominates the parameters; zero squares give a degenerate third ellipse |
| C232 | `_rotation`, `_transform`, `kernel` (trivariate) of fixed-width integers | sums and products stay in range; residue class of the negated sample |
| C233 | `_cxr` on inexact conjugates | the three classes of the sorted list; merge sort is stable; runs found above the axis are imposed below it |
| C234 | means, `variance`, moving averages with gradual underflow | as C139–C142 with an absolute error `η` carried along; additions stay relative because the grid is closed under them; flush and stall by exact evaluation of the rounding on the grid |
| C235 | `reynolds_stresses`, `kinetic_turbulent_energy` with rounding and underflow | error of one product of fluctuations, summed; mean product about the computed means = covariance + product of the mean errors |
| C236 | `power_spectra` of a tone on the frequency grid | transform of the tone = two copies of the transform of the window; the window's transform by geometric sums and Jordan's inequality |
| C237 | `std`, `acceleration_thresholding` with rounding and underflow | difference of square roots from the difference of variances; a comparison of two computed numbers is right when the exact ones differ by more than the two errors |
| C238 | `three_dimensional_kernel` on fixed-width and on exact integers | truncated half-differences; composition of C232 and C117 |
| C239 | step sizes of `_optimize_within_bounds` over successive passes: golden section or halving | what one pass chooses from the finite part of the state; iterates of the loop body |
| C240 | `fminbound` (its own computed constants) with rounding: every pass keeps 2/5 of the computed tolerance from the best point and both ends; invariant of the bracket | `Props/FminRndConv.lean`, `Lemmas/RoundMonoReal.lean` |
| C241 | `brentqR` (every operation rounded): width and the last two step lengths shrink by 1.9 each in turn | `Props/BrentRndConv.lean`, on top of C214's invariant |
| C242 | `cdf`, `sf`, `log_sf` with rounding and an inexact library | contract on `erf`/`erfc` (`Py/Libm.lean`); perturbation of the argument by the mean value theorem, Mills' ratio for the left tail; `1 - y` rounds to 1 for `y < 2⁻⁵⁴` |
| C243 | `pdf`, `log_pdf` with rounding and an inexact library | error of the exponent term by term, then `exp` and `log` of a perturbed argument |
| C244 | far tails of `pdf`, `log_pdf`, `cdf`, `log_cdf` with gradual underflow | results below half the smallest positive number round to 0 (`Py/UnderflowReal.lean`) |
| C245 | rounding in `skewness` and `kurtosis` | error analysis of the central moments about the computed mean; binary64 values by `rnd53R_cast` and `decide +kernel` |
| C246 | rounding in `velocity_correlation` | limits along the filter of fine arithmetics (`Py/Fine.lean`): every step is continuous off the decision boundaries; numerators of opposite sign when the ellipse does not exist |
| C247 | rounding in `phasespace_thresholding` | the same limits; `around` is locally constant off the ties; for the witness the filter is restricted to arithmetics that round up |
| C248 | rounding and underflow in `pollution_rate` | error of the computed standard deviation gives a margin outside which every comparison is decided as in exact arithmetic; the witness rounds one number |
| C249 | rounding in `phasespace_thresholding_premodification` | signs only (no-op); order statistics move by at most the largest change of a sample (MAD) |
| C250 | ties in `spherical_phasespace_thresholding` | half differences of multiples of 0.0001; rounding of an odd multiple of half a unit |
| C251 | `np.around` at the end of `linear_interpolation`, `cubic_12points_polynomial`, `polynomial_replacement` | a perturbed integer stays within 1/2 of it; monotonicity of the three steps; binary64 witness by `decide +kernel` |
| C252 | overflow in `linear_interpolation` | the overflowing step is carried through division, product and sum as an infinity; otherwise C217's range argument bounds every intermediate result |
| C253 | the lag matrix of a geometric signal has rank one, so a column not orthogonal to the geometric vector is a multiple of it and has its mobility | linear algebra |
| C254 | `reynolds_stresses`, `kinetic_turbulent_energy` with underflow and overflow (`Py/Full.lean`) | a finite result equals the one without overflow (C235); bounds for every intermediate result; induction on the sum of squares |
| C255 | mean, variance and moving averages with underflow and overflow (`Py/Full.lean`) | step by step, a number computed with overflow is the one computed without; then C234 |
| C256 | mesh of the trivariate kernel, `_factor` | induction over the axes; nearest grid point by rounding; monotonicity and limit of real powers |
| C257 | signed grids in the trivariate kernel (`Model/KernelGrid.lean`) | the mesh sees the absolute value; the slope changes sign and is used only through its absolute value |
| C258 | overflow in `std`, `acceleration_thresholding`, `pollution_rate` (`Py/OverflowReal.lean`) | a finite computed variance is at most the largest float and within C255's bound of the exact one; an infinite or NaN standard deviation makes every comparison false; otherwise step by step equality with `Rd` |
| C259 | `min`, `max`, `mode` under joining, repetition and conversion | C01 and C06 determine the result, so each claim is checked on the characterisation; counting lemmas for injective maps |
| C260 | overflow in `velocity_correlation` and `phasespace_thresholding` | each value on the way to the axes is classified as a number of known sign, +inf or NaN, or -inf or NaN; the two squared axes are never both positive, so the ellipse is not real and `velocity_correlation` raises; the criteria compare with NaN or infinity |
| C261 | `mean_value`, `median_value`, `median` with rounding, underflow and overflow | C255 and C234 for the value, C44 and C48 for where it is written; sorting does not compute, so only the sum of the two middle samples can overflow |
| C262 | overflow in `spherical_phasespace_thresholding` | the radicand of the intersection point is +inf or NaN, the numerator is no number, so the point is NaN and the comparison false; a NaN angle makes all coordinates NaN and `nanstd` of nothing is NaN |
| C263 | overflow in the example programs | C260 and C262 give an empty detection for each component, the first round is quiet and the loop ends; the error of C260 passes through the loop |
| C264 | stability under the transforms, for any filter | the real part of a root of s^2 - 2as + c^2 has the sign of Re a; division and bilinear map in both directions; composition laws by computing lists and gains |
| C265 | real filters under the transforms, for any filter | conjugation commutes with each map of the roots; for `_catenate` the two roots are exchanged or kept as a pair; counterexample by computing the gain |
| C266 | composition of the transforms | equality of lists root by root; the factor a^(np - nz) of the gain cancels against the products of scaled roots; the zeros that `low_to_high` puts at 0 become the two square roots of -pc^2 |

## 4. Trusted base

* Lean 4.33.0's kernel. `lake build` elaborates every module; `vcheck` replays every module through the kernel.
* Axioms: `propext`, `Classical.choice`, `Quot.sound` only. No axiom is declared in `/verif`; there is no `sorry`, `admit`,
  `native_decide`, `bv_decide`, `implemented_by`, `extern` or `unsafe`. Concrete cases use `decide +kernel` (kernel reduction)
  or `simp`/`norm_num` (proof terms). `AXIOMS.md` lists the axioms of every theorem named in `MANIFEST.json`, generated with
  `#print axioms`.
* Mathlib 4.33.0 definitions used in statements: `ℚ ℝ ℂ`, `List`, `Real.sqrt/exp/log/sin/cos/tan/arctan/pi`, `Complex.exp/arg`,
  `gaussianReal`, interval integrals, `ContinuousOn`. `erf` is defined in `Verif/Py` as the Gaussian integral.
* The reading of Python and numpy in the model: that each definition says what the cited lines do. This is the part a
  reviewer has to check by eye; every definition cites its lines for that purpose, and `Verif/Tests.lean` runs the
  documented examples.

### Library contracts (hypotheses of theorems, never axioms)

| library call | how it enters |
|---|---|
| `np.linalg.eigh`/`eig` in `ssa` | parameter; C22, C150 and C152 assume orthonormal columns, `C152_constant`, C209, C210, C230_reversal and C253 also that they are eigenvectors of the lag matrix (`C209_exists`: such a matrix exists for every signal); C151 and C153 assume nothing about them |
| random generator in `synthetic.py` | parameter: an arbitrary stream |
| `scipy.interpolate.interp1d(kind=3)` | parameter; C57, C207 and C208 assume it returns the value at 13 of the not-a-knot cubic spline through its nodes (`IsCubicInterp`). That spline exists for all ordinates (`isCubicInterp_exists`) and its value is an explicit weighted sum of them (`C207_interp`) |
| `sklearn` polynomial regression (`_create_model`) | parameter of `polynomialReplacement`; C58 uses only its argument sizes, C125, C187 and C188 assume it minimises the sum of squares (`LeastSquares`). `createModel` (`Model/CreateModel.lean`) writes it out over the reals: features, centring, least-norm least squares, intercept; it meets `LeastSquares` (C204) |
| `np.linalg.inv` | 1×1: reciprocal or LinAlgError (`inv1`); other shapes (C138): LinAlgError or a result of the same square shape (`InvContract`, shown satisfiable) |
| `scipy.signal.welch`, `scipy.signal.windows.hann` | modelled after scipy's definitions for 1-D real data and the defaults `power_spectra` leaves in place |
| `gaussian_kde`, `gaussian_kernel_estimate` | `kernel` takes the grid density as a parameter that may raise (C80-C82, C108); `kdeGrid` models it after scipy's definitions (C116–C119) |
| `linalg.cholesky` | parameter; C115 assumes an upper factor with positive diagonal. `chol2` models the 2×2 case: ValueError on non-finite entries, LinAlgError unless positive definite |
| scipy `brentq`, `fminbound` inside `kernel/bivariate.py` | parameters, may raise; C87's interval claim assumes they stay in their interval |
| `np.sqrt` on complex numbers | parameter `csqrt`, only `csqrt x ^ 2 = x` |
| `np.argsort` in `xyz_to_sop` | parameter, only that it lists every index once (C113's keep-odd theorem: by increasing distance) |
| `np.argmin`, `np.argmax`, `np.unique`, `np.where`, `np.diff`, `np.cov`, `np.gradient`, `np.fft.fft`, `np.poly`, `np.convolve`, sorting | modelled by their definitions |

## 5. What is modelled, and what is not

All functions of `proadv/statistics`, `proadv/filtration`, `proadv/kernel` are modelled except:

* plotting and file access (none in the package itself). Of `examples/`, the detection and replacement parts of the six programs in
  `examples/filtration` (`Model/Pipeline.lean`) and the computations of the seven programs in `examples/signal`
  (`Model/SignalPrograms.lean`) are modelled: their data are parameters, reading and plotting are left out.
  `dataset/` and `docs/` are not modelled;
* `replacements._create_model` (builds the sklearn pipeline): a parameter of `polynomialReplacement`, modelled over the reals only
  (`createModel`): no rounding, no overflow of the powers, and no cut-off for small singular values.

Simplifications, each also noted at its definition:

* **exact values**: `Fl K` has no rounding, overflow, underflow, signed zero; `np.sum` is the exact sum there. Structural
  theorems do not use `Fl`. `Rd A` (C139–C142, C215–C217) and `brentqR` (C214) add rounding, still without overflow and underflow; `Ov O` (`Verif/Py/Overflow.lean`, C223) adds overflow to
  infinities after rounding, for means, variance, the moving averages, `linear_interpolation` (C252), Reynolds stresses and kinetic energy (C254) and one `kalman_filter` run only; gradual underflow (`Verif/Py/Underflow.lean`, C234, C235, C237, C244, C248, C249) is
  modelled for mean, variance, the moving averages, Reynolds stresses, kinetic energy, standard deviation, `acceleration_thresholding`, `pollution_rate`, `phasespace_thresholding_premodification` and the tails of the normal distribution only, and together with overflow (`Verif/Py/Full.lean`) only for Reynolds stresses and kinetic energy (C254), mean, variance and the moving averages (C255), standard deviation, `acceleration_thresholding` and `pollution_rate`, `mean_value`, `median` and `median_value` (C261), and infinite standard deviations in `velocity_correlation`, `phasespace_thresholding` and `spherical_phasespace_thresholding` (C258, C260, C262; `Verif/Py/OverflowReal.lean` rounds `sqrt` once, as IEEE 754 requires); a power `x ** n` is rounded once;
  `np.around` is numpy's sequence of a rounded product, rounding to an integer and a rounded quotient, with `10 ** d` exact (in binary64: at most 22 decimals).
  `exp`, `log`, `erf` and `erfc` of an actual library are not modelled: C242 and C243 hold for every library whose relative error is at most `ε` (`Libm.Acc`, a hypothesis of those theorems), and C244 takes them as rounded once after the exact result.
* **dtype**: integer arrays are exact integers stored as floats with truncating stores; wrapping is modelled in
  `Verif/Model/Narrow.lean` (C225, C226, C231, C232, C238; numpy 1.26 as pinned by requirements.txt) for the functions that subtract integer samples before converting them: `moving_average`,
  `acceleration_thresholding` with a float frequency, and the two derivative loops, and for those that multiply or negate them: `phasespace_thresholding` (C231) and the index part of the trivariate `kernel` with its rotation (C232). Their composition `three_dimensional_kernel` is in C238.
  float32 arrays are not distinguished from float64, except in `trivariatekernel._type`, which is modelled on element types
  alone (C195); the kernel it names is always evaluated in the one float arithmetic of the model.
* **argument kinds**: lists/tuples and 1-D arrays are identified where the code converts them; `ndim` is tracked where the code
  tests it. Complex data, masked arrays, `None` and nested lists are not represented. A string argument of
  `mean` is its list of characters.
* **`kalman_filter`**: C18–C20, C132 and C133 use 1×1 matrices as scalars (as in its documentation). C138 models 2-D arrays of any shape, with `np.linalg.inv` under the contract `InvContract`, and reduces the accepted shapes to the scalar filter. C194 adds numbers and 1-D arrays as initial arguments; arrays of three or more dimensions are not modelled.
* **`kurtotest`**: an intermediate masked value is represented by 0 (`kurtZ`); no returned value depends on it, since `kurtotest`
  never returns (C35).
* **`power_spectra`**: 1-D real data, sampling frequency not a Python zero, no signed zero.
* **unbounded loops** (`_random_index`): step function plus a fuel bound; termination and divergence are theorems about the steps.
* **`spherical`**: `c` is a 1-D float array; the rounding applied to intermediate values is a parameter in C74 and the code's own in C120–C122.
* **second-order sections**: exact complex arithmetic, tolerance `me ≥ 0` arbitrary; theorems assume no root lies strictly between
  the real axis and the tolerance.
* **warnings** (`RuntimeWarning`, `ComplexWarning`) are not events of the model.

## 6. Findings (properties of the code that differ from its documentation)

All are theorems or kernel-checked witnesses.

| where | finding | claim |
|---|---|---|
| `mean` | numeric strings after the first non-numeric string are dropped | C03 |
| `mean` | a string is averaged digit by digit: `mean("12")` is 1.5 | C123 |
| `moving_average` | one NaN makes all later outputs NaN | C14 |
| `moving_average` | in binary64, one huge sample falsifies all later outputs, not only those whose window contains it | C139 |
| `moving_average` | on unsigned integer recordings every sample lower than the one a window earlier shifts all later outputs by 2^bits/window | C225 |
| `acceleration_thresholding` | on unsigned integer recordings downward accelerations are never found and decreases count as increases | C226 |
| `mean`, `median` | the sum overflows although the result is representable | C223 |
| `moving_average` | once one window overflows no later output is a number | C223 |
| `kalman_filter` | when the innovation covariance overflows the gain is 0: finite output that ignores the measurements | C223 |
| `variance` | in binary64, a constant series can have a positive variance | C142 |
| `kalman_filter` | in binary64, with a very large prior covariance and no process noise it repeats the first measurement for ever | C216 |
| `mean`, `linear_interpolation` | in binary64, the mean can exceed all samples, and so can a block at the end | C217 |
| `moving_average`, `mean_value` | one infinite sample makes all later moving averages NaN; mean_value writes the infinity into every spike | C202, C203 |
| detectors | one infinite sample silences phasespace, acceleration and spherical thresholding; velocity_correlation raises | C203, C73 |
| `exponential_moving_average` | integer input truncates at every step | C16 |
| `exponential_moving_average` | in binary64 a constant series is not reproduced: 0.3 with alpha 0.1 gives the next larger number for ever | C141 |
| `weighted_moving_average` | last sample never used; n − period outputs | C17 |
| `synthetic_noise` | more than 100 % never terminates | C28 |
| `power_spectra` | overlap percentage is passed as a number of samples; block 2 always gives NaN; one NaN spoils the whole spectrum | C30, C131 |
| `xyz_to_ptf` | only the first row of zeros is tested for conjugate pairs; later rows lose their imaginary part | C124 |
| `cdf` | integer arrays give 0 everywhere; scalars raise | C34 |
| `skewtest`, `kurtotest` | never return (scalar passed to `cdf`) | C35 |
| `brentq` | maxiter does not raise; reported calls one too small then | C38, C39 |
| `fminbound` | returned point is the last one tried, not the best one | C43 |
| `last_valid_data` | spike at index 0 wraps to the last sample | C46 |
| `linear_interpolation` | run at the beginning uses the next sample, not the mean; fails without spikes and on integers | C50, C51 |
| `weighted_moving_average` replacement | uses future samples; fails near the end | C54 |
| `kalman_filter` replacement | always raises | C55 |
| `_type` (trivariate) | complex arrays select the kernel of twice their precision; half-precision pairs select none | C195 |
| `kalman_filter` (smoother) | 1-D covariance with scalar or 1-D noises raises LinAlgError | C194 |
| `cubic_12points_polynomial` | abscissae shifted by one: half a step off on a line; trailing spike raises | C56, C57 |
| `linear_interpolation` | spikes listed in any other than increasing order leave NaN in the result, without an error | C219 |
| `last_valid_data` | spikes listed in decreasing order are filled with spikes | C219 |
| `linear_interpolation` | the spike -1 is left NaN, -k is replaced by the next sample alone | C221 |
| `bivariate_kernel` / `root` | the searched function `t - (t - a(t))/a(t)` does not vanish at the fixed points `a(t) = t` of the bandwidth selector; its zeros satisfy `a(t) = t/(1+t)` (no effect on the density, which ignores `t_star`) | C222 |
| `weighted_moving_average` (replacement) | uses the documented trailing window for negative indices only | C221 |
| `cubic_12points_polynomial` | earlier spikes leak into later replacements; overshoots the samples it uses by up to 0.672 of their range | C208 |
| `polynomial_replacement` | single spike raises, index 10 never modified | C58 |
| `polynomial_replacement` | with a window not longer than the degree the prediction depends on the position in the recording and does not continue a straight line; an unlisted NaN in a window raises | C204, C205 |
| `acceleration_thresholding` | cannot flag anything when k_sigma² ≥ n − 1, whatever the spike | C134 |
| `phasespace_thresholding_premodification` | never changes the data | C62 |
| `phasespace_thresholding` | depends on the mean level and on the unit of velocity; third ellipse has wrong axes | C66, C136, C103 |
| `velocity_correlation` | raises when an axis is not real, for constant components and for slopes ≥ 45° | C68, C69, C104 |
| `velocity_correlation` | a high enough spike in v or w raises ValueError instead of being flagged; can flag every sample of a recording without spikes | C196, C198 |
| `phasespace_thresholding` | flags the neighbours of a high spike although they are unchanged | C200 |
| `spherical_phasespace_thresholding` | flags the unchanged samples two before and two after a high spike | C220 |
| `spherical_phasespace_thresholding` | which samples are flagged depends on the direction of time | C228 |
| `velocity_correlation` | the order of the components matters: a call may succeed as (u, v, w) and raise ValueError as (v, u, w) | C227 |
| `spherical_phasespace_thresholding` | ignores `iteration`/`c_mean`; one NaN disables it; angle depends on four samples only; rounding hides spikes of any size in some directions | C72, C73, C105, C122 |
| `mean_value`, `median_value` and the three moving-average replacements | a listed NaN sample stays NaN | C184 |
| `acceleration_thresholding`, `phasespace_thresholding` | one NaN anywhere and no spike is flagged | C186 |
| `velocity_correlation` | one NaN in any component raises ValueError | C186 |
| `pollution_rate` | can exceed 100 % | C78 |
| trivariate kernel | rotation does not decorrelate; cutoffs can degenerate to zero width at the first grid point | C80, C108 |
| `kernel` (trivariate) | returned `estimation` centres its kernels at the unrotated samples; collinear samples raise LinAlgError; flagged set depends on the unit of velocity | C116, C117, C119 |
| `_discrete_cosine_1d` | Fourier transform along the wrong axis: not a DCT; odd orders fail, order 1 gives a 2×2 matrix | C88, C109 |
| `bivariate_kernel` | forward transform applied instead of the inverse, density not normalised; odd grids fail; constant rows fail | C89, C110 |
| `root` (bivariate) | only ValueError of brentq is caught | C87 |
| acceleration example | tests one direction per round and stops at the first round without finding: upward spikes of any height survive | C145 |
| `ssa` | with a window of 20000 samples or more (fs/f ≥ 20000) every eigenvector is discarded and the result is all zeros | C152 |
| `ssa` | with a repeated non-zero eigenvalue of the lag matrix the result depends on which eigenvectors the installed LAPACK returns (`[1, 0, 1]` or `[0.5, 0.5, 0.5]` for the same call) | C209 |
| spectrum example | the -5/3 line disappears when one density is zero (constant data) | C177 |
| `bivariate_kernel` | does not tend to the uniform density for large bandwidths; not symmetric under exchange of the coordinates | C173, C174 |
| `skewtest` | the statistic is positive, not zero, for symmetric data | C172 |
| kernel examples | raise IndexError when nothing is detected | C147 |
| `kernel` (trivariate) | with an empty second cutoff interval a sample on its line is never flagged, however far out; the bivariate example flags it | C149 |
| `butterworth` | a third band edge is ignored; order 0 accepted | C98, C101 |
| `xyz_to_sop` | minimal and keep-odd pairings raise IndexError on legitimate filters | C113 |
| `phasespace_thresholding` | unsigned integer recordings: a dip of one count in a constant recording flags the sample before it; the third test is void when all squares are multiples of 2^bits | C231 |
| `_transform` (trivariate) | unsigned samples with non-zero first component are displaced by 2^bits sin θ, zeros are not | C232 |
| `_cxr` | rejects some roots that are conjugate up to its own tolerance, because runs found above the axis are imposed below it | C233 |
| `variance` | 0 for every recording of samples below `2⁻⁵⁴⁰`, constant or not: the squares underflow | C234 |
| `exponential_moving_average` | does not decay to 0: it stalls at a multiple of the smallest positive number | C234 |
| `three_dimensional_kernel` | integer recordings that vary slowly or like a ramp raise LinAlgError because half differences are truncated | C238 |
| `sf`, `log_sf` | exactly 0 and `-inf` for every `x ≥ 8.5`, because `1 - cdf` cancels; `cdf(-x)` does not | C242 |
| `log_pdf`, `log_cdf` | `-inf` beyond 39 standard deviations, because the logarithm is taken of an underflowed value | C244 |
| `skewness`, `kurtosis` | a constant recording whose computed mean is not the constant has skewness ±1 and kurtosis 1 instead of NaN, e.g. 0.1 three times | C245 |
| `phasespace_thresholding` | the first derivative is rounded to four decimals, so its half differences are multiples of 0.00005 and every odd multiple is a tie of the same rounding; the flagged samples can depend on arbitrarily small rounding errors | C247 |
| `pollution_rate` | a sample exactly on its band is counted or not depending on arbitrarily small rounding errors | C248 |
| `spherical_phasespace_thresholding` | the recording is rounded to four decimals before it is differentiated, so every odd first difference is a tie of the rounding after the rotation and is moved by 0.00005 | C250 |
| `linear_interpolation` | the sample 0.00005 (stored slightly above) is rounded down to 0 at four decimals: `np.around` rounds the product with 10000 first | C251 |
| `linear_interpolation` | with 4 decimals every sample beyond about 1.8e304 is returned as infinity, spike or not, because `np.around` multiplies by 10000 first | C252 |
| `reynolds_stresses` | with deviations beyond about 1.3e154 a shear stress may be NaN although all samples are finite and the exact stress is 0 | C254 |
| `kernel` (trivariate) | a grid of 0 raises IndexError in `_profile` before the samples are examined, so even a record with a NaN or on a line gives IndexError there | C117 |
| `three_dimensional_kernel` | a negative grid is accepted and behaves as its absolute value | C257 |
| `acceleration_thresholding`, `pollution_rate` | a spike so high that its square overflows makes the standard deviation infinite: nothing is flagged and the rate is 0 | C258 |
| `mode` | with two equally frequent values the mode of the negated data is not the negated mode (the smaller value wins on both sides) | C259 |
| `velocity_correlation`, `phasespace_thresholding` | a spike so high that its square overflows makes the first raise ValueError and the second flag nothing | C260 |
| `mean_value`, `median_value` | write an infinity into the spikes when the sum of the samples (of the two middle samples) overflows, although mean and median are representable | C261 |
| `spherical_phasespace_thresholding` | a spike so high that its square overflows is not flagged | C262 |
| `phase-space.py`, `phase-space-3d.py`, `acceleration.py`, `correlation.py` | a spike whose square overflows in every component is returned as clean data (the first three) or ends in ValueError (the last) | C263 |
| `low_to_band` | with centre frequency 0 it returns a pole at 0, so an unstable filter, for every stable one | C264 |
| `low_to_high` | takes the real part of a complex gain: a filter with one imaginary zero and one real pole becomes the zero filter | C265 |

## 7. How the theorems were tested

`seeded/LOG.jsonl`: each line is one bug put into a copy of the model, the claim it breaks, the theorems that stopped compiling, and
the theorems tightened when none did. What a line does and does not show:

* `failed` lists the first layer of failures only: Lake does not build a module that imports a failed one. Later batches (lines with
  `"build": "stopped"`) were moreover stopped 15 seconds after the first failing theorem; the others ran until Lake gave up. Lines with
  `"build": "only …"` built the named modules and what they import, not the rest.
* Where `failed` names no theorem `C…`, only a helper lemma about the edited definition broke (`"evidence": "helper"`). The bug is then
  noticed by the build, but it was not shown that the property theorem itself becomes unprovable.
* A theorem that stops compiling may have a proof that broke although its statement is still true; this was not examined line by line.
* Lines with claim "none named" come from mechanically generated edits (swapped operators, changed constants); no claim was chosen
  beforehand, and the edit may break any property that depends on the definition.
