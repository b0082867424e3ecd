{"id": "C01", "title": "min/max return an attained bound, and reject exactly strings, NaN and empties", "statement": "min(data) (max(data)) raises TypeError when some item is a string, otherwise ValueError when some item is NaN, otherwise ValueError when data is empty; in every other case it returns an item of data that is <= (>=) every item.", "quantifier": "every list of Python items of every length", "why_tests_cant": "The input space is every finite array of every length; tests sample a handful of literals.", "anchors": ["proadv/statistics/descriptive.py:min", "proadv/statistics/descriptive.py:max"]}
{"id": "C02", "title": "mean of numeric data is sum/len, lies between the extremes and is affine-equivariant", "statement": "For every non-empty all-numeric data, mean(data) is the sum divided by the length, min(data) <= mean(data) <= max(data), and mean(a*data+b) = a*mean(data)+b. Empty data gives the string 'Invalid input.'.", "quantifier": "every list of numbers, every a, b", "why_tests_cant": "The input space is every finite array of every length; tests sample a handful of literals.", "anchors": ["proadv/statistics/descriptive.py:mean"]}
{"id": "C03", "title": "mean of mixed data converts numeric strings and ignores the others", "statement": "For data mixing numbers and strings, mean(data) is the mean of the numbers together with the numeric strings, whatever the order of the items (docstring). The code drops every string that follows the first non-numeric one, so the full claim is false; it holds when no numeric string follows a non-numeric one.", "quantifier": "every list of numbers and strings, every order", "why_tests_cant": "Order dependence only shows for particular orders; the docstring example happens to have the good order.", "anchors": ["proadv/statistics/descriptive.py:mean"]}
{"id": "C04", "title": "median splits the data in half", "statement": "For every non-empty 1-D numeric array, at least half of the samples are <= median(data), at least half are >= median(data), and the result lies between min and max. Not 1-D -> ValueError, string element -> TypeError, empty -> ValueError.", "quantifier": "every array of every length", "why_tests_cant": "The input space is every finite array of every length; tests sample a handful of literals.", "anchors": ["proadv/statistics/descriptive.py:median"]}
{"id": "C05", "title": "median and mode do not depend on sample order; median is affine-equivariant", "statement": "median(data) and mode(data) are unchanged by any permutation of data, and median(a*data+b) = a*median(data)+b for every a (including negative) and b.", "quantifier": "every array, every permutation, every a, b", "why_tests_cant": "There are n! permutations.", "anchors": ["proadv/statistics/descriptive.py:median", "proadv/statistics/descriptive.py:mode"]}
{"id": "C06", "title": "mode returns the smallest most frequent value and its exact multiplicity", "statement": "mode(data) = (v, c) where v occurs exactly c times, no value occurs more than c times, and every value smaller than v occurs strictly fewer than c times; empty data raises ValueError.", "quantifier": "every array of every length", "why_tests_cant": "The input space is every finite array of every length; tests sample a handful of literals.", "anchors": ["proadv/statistics/descriptive.py:mode"]}
{"id": "C07", "title": "variance and std are non-negative, vanish exactly on constant data, and std^2 = variance", "statement": "For every non-empty 1-D array, variance(data) >= 0, variance(data) = 0 iff all samples are equal, std(data) >= 0, std(data)**2 = variance(data) and variance(data) = mean(data**2) - mean(data)**2. Errors: ndim != 1 -> ValueError, string -> TypeError, empty -> ValueError.", "quantifier": "every array", "why_tests_cant": "The input space is every finite array of every length; tests sample a handful of literals.", "anchors": ["proadv/statistics/spread.py:variance", "proadv/statistics/spread.py:std"]}
{"id": "C08", "title": "variance is shift-invariant and scales quadratically", "statement": "variance(a*data+b) = a**2*variance(data) and std(a*data+b) = |a|*std(data).", "quantifier": "every array, every a, b", "why_tests_cant": "The input space is every finite array of every length; tests sample a handful of literals.", "anchors": ["proadv/statistics/spread.py:variance", "proadv/statistics/spread.py:std"]}
{"id": "C09", "title": "std never exceeds half the range", "statement": "std(data) <= (max(data)-min(data))/2 for every non-empty array; hence every deviation threshold built from std is bounded by the data range.", "quantifier": "every array", "why_tests_cant": "The input space is every finite array of every length; tests sample a handful of literals.", "anchors": ["proadv/statistics/spread.py:std"]}
{"id": "C10", "title": "skewness is affine-invariant and odd", "statement": "skewness(a*data+b) = sign(a)*skewness(data) for a != 0; on constant data the result is NaN rather than an exception. A 0-d array raises TypeError, every other empty or not 1-D array ValueError.", "quantifier": "every array, every a != 0, b", "why_tests_cant": "The input space is every finite array of every length; tests sample a handful of literals.", "anchors": ["proadv/statistics/moment.py:skewness"]}
{"id": "C11", "title": "kurtosis is affine-invariant and at least skewness^2 + 1", "statement": "kurtosis(a*data+b) = kurtosis(data) for a != 0, and kurtosis(data) >= skewness(data)**2 + 1 >= 1 for every non-constant array; NaN on constant data. It rejects exactly the arrays skewness rejects.", "quantifier": "every array, every a != 0, b", "why_tests_cant": "Pearson's inequality is a universally quantified inequality.", "anchors": ["proadv/statistics/moment.py:kurtosis", "proadv/statistics/moment.py:skewness"]}
{"id": "C12", "title": "moving_average is the trailing window mean", "statement": "For 1 <= w <= n, moving_average(data, w) has length n and entry i is the mean of the last min(i+1, w) samples up to i, although it is computed by an incremental recurrence. w <= 0, ndim != 1, w > n raise ValueError, empty data gives an empty array.", "quantifier": "every array, every window", "why_tests_cant": "The recurrence could drift at any index; only induction covers every index.", "anchors": ["proadv/statistics/series.py:moving_average"]}
{"id": "C13", "title": "moving_average stays within the data range", "statement": "Every output of moving_average lies between min(data) and max(data).", "quantifier": "every array, window, index", "why_tests_cant": "The input space is every finite array of every length; tests sample a handful of literals.", "anchors": ["proadv/statistics/series.py:moving_average"]}
{"id": "C14", "title": "one NaN poisons every later moving average", "statement": "If data[j] is NaN then every output of moving_average at an index i >= j is NaN, even when the window no longer covers j.", "quantifier": "every array, window and NaN position", "why_tests_cant": "Contract about all later indices.", "anchors": ["proadv/statistics/series.py:moving_average"]}
{"id": "C15", "title": "exponential_moving_average closed form and bounds", "statement": "For float data and 0 < alpha <= 1, output i equals (1-alpha)^i*data[0] + sum_{j=1..i} alpha*(1-alpha)^(i-j)*data[j]; every output lies between min and max of the samples seen so far; alpha = 1 returns the data; alpha <= 0 or alpha > 1 raises ValueError; empty data raises IndexError.", "quantifier": "every array, every alpha, every index", "why_tests_cant": "The input space is every finite array of every length; tests sample a handful of literals.", "anchors": ["proadv/statistics/series.py:exponential_moving_average"]}
{"id": "C16", "title": "exponential_moving_average on integer data truncates at every step but stays within the data range", "statement": "On integer-dtype data every output is an integer lying between the minimum and the maximum of the data, and it is not in general the float result (witness).", "quantifier": "every integer array, every alpha", "why_tests_cant": "Truncation error compounds through the recurrence.", "anchors": ["proadv/statistics/series.py:exponential_moving_average"]}
{"id": "C17", "title": "weighted_moving_average is the linearly weighted window mean, and never uses the last sample", "statement": "For 1 <= p <= n, weighted_moving_average(data, p) has n-p entries, entry k is sum_{j<p}(j+1)*data[k+j] / (p(p+1)/2), it lies between the extremes of its window, and the result does not depend on data[n-1]. p <= 0 or p > n raises ValueError.", "quantifier": "every array, every period", "why_tests_cant": "The input space is every finite array of every length; tests sample a handful of literals.", "anchors": ["proadv/statistics/series.py:weighted_moving_average"]}
{"id": "C18", "title": "Kalman estimates stay between the prior state and the measurements", "statement": "With initial covariance >= 0, process noise >= 0 and measurement noise > 0, kalman_filter returns one estimate per measurement, and each lies between the min and max of the initial state and the measurements so far; the covariance stays in [0, R].", "quantifier": "every measurement history, every noise setting", "why_tests_cant": "Quantifies over every history of measurements.", "anchors": ["proadv/statistics/series.py:kalman_filter"]}
{"id": "C19", "title": "Kalman filter with no process noise is the exact Bayesian average", "statement": "With process noise 0, prior variance P >= 0 and measurement noise R > 0, the estimate after n measurements is (R*x0 + P*sum z_i)/(R + n*P).", "quantifier": "every measurement history", "why_tests_cant": "Every history length.", "anchors": ["proadv/statistics/series.py:kalman_filter"]}
{"id": "C20", "title": "Kalman filter degenerate cases", "statement": "With measurement noise 0 and process noise > 0 each output equals the measurement; with both noises 0 and P > 0 the first output is the measurement and a second measurement raises LinAlgError; with all three covariances 0 the first measurement raises LinAlgError; with infinite-trust prior (P = Q = 0, R > 0) the output is constantly the initial state.", "quantifier": "every measurement history", "why_tests_cant": "Every history.", "anchors": ["proadv/statistics/series.py:kalman_filter"]}
{"id": "C21", "title": "diagonal averaging computes anti-diagonal means", "statement": "For a real matrix of shape length x (size-length+1), the m-th value used by ssa's reconstruction is the mean, rounded to 4 decimals, of all entries with row+col = m, whichever of the two dimensions is larger.", "quantifier": "every matrix, every size and length", "why_tests_cant": "Three index loops with different bounds; off-by-ones only show at particular shapes.", "anchors": ["proadv/statistics/series.py:_diagonal_average"]}
{"id": "C22", "title": "embedding followed by reconstruction is the identity up to rounding", "statement": "Diagonal averaging of the trajectory matrix of a signal returns the signal rounded to 4 decimals; so ssa returns the rounded signal whenever every eigenvector passes its mobility threshold.", "quantifier": "every signal, every window length <= n", "why_tests_cant": "The input space is every finite array of every length; tests sample a handful of literals.", "anchors": ["proadv/statistics/series.py:ssa", "proadv/statistics/series.py:_diagonal_average"]}
{"id": "C23", "title": "ssa rejects window lengths it cannot use", "statement": "ssa raises when ceil(fs/f) is 1 (mobility needs two elements) or exceeds the signal length; otherwise it returns a signal of the same length as the input with every value rounded to 4 decimals.", "quantifier": "every signal, fs, f", "why_tests_cant": "The input space is every finite array of every length; tests sample a handful of literals.", "anchors": ["proadv/statistics/series.py:ssa", "proadv/statistics/series.py:_mobility"]}
{"id": "C24", "title": "turbulent kinetic energy is non-negative, Galilean-invariant and half the trace of the Reynolds stresses", "statement": "kinetic_turbulent_energy(u,v,w) >= 0, is unchanged when constants are added to the components, equals half the sum of the first three outputs of reynolds_stresses, and is 0 iff every component is constant.", "quantifier": "every triple of arrays, every offsets", "why_tests_cant": "The input space is every finite array of every length; tests sample a handful of literals.", "anchors": ["proadv/statistics/signal/fluid.py:kinetic_turbulent_energy", "proadv/statistics/signal/fluid.py:reynolds_stresses"]}
{"id": "C25", "title": "Reynolds stresses form a realizable (positive semidefinite) symmetric tensor", "statement": "For all directions (a,b,c): a^2 uu + b^2 vv + c^2 ww + 2ab uv + 2ac uw + 2bc vw >= 0; in particular uv^2 <= uu*vv; offsets do not change any component; swapping two inputs swaps the corresponding outputs.", "quantifier": "every triple of equal-length arrays, every direction", "why_tests_cant": "Positive semidefiniteness quantifies over all directions.", "anchors": ["proadv/statistics/signal/fluid.py:reynolds_stresses"]}
{"id": "C26", "title": "turbulent kinetic energy does not depend on the horizontal orientation of the probe", "statement": "Rotating (u,v) by any angle leaves kinetic_turbulent_energy unchanged.", "quantifier": "every arrays, every rotation", "why_tests_cant": "The input space is every finite array of every length; tests sample a handful of literals.", "anchors": ["proadv/statistics/signal/fluid.py:kinetic_turbulent_energy"]}
{"id": "C27", "title": "random pollution indices are sorted, distinct, in range and of the exact requested number", "statement": "Whatever the random generator returns, if synthetic index selection terminates it returns strictly increasing indices in [0, n) and exactly int(n*percent/100) of them.", "quantifier": "every random stream, n, percent", "why_tests_cant": "Quantifies over every random stream.", "anchors": ["proadv/statistics/signal/synthetic.py:_random_index"]}
{"id": "C28", "title": "requesting more than 100 percent never terminates", "statement": "If int(n*percent/100) > n the index selection loop never terminates, for every random stream; if it is <= n it terminates on every stream that visits every index.", "quantifier": "every random stream, every number of steps", "why_tests_cant": "Non-termination cannot be observed by a test.", "anchors": ["proadv/statistics/signal/synthetic.py:_random_index"]}
{"id": "C29", "title": "synthetic noise changes only the selected samples, with alternating sign and amplitude at least percent*mean", "statement": "synthetic_noise returns data unchanged outside the selected indices; at the k-th selected index the added spike is (|r_k|+percent)*mean for even k and its negative for odd k (r_k the k-th noise value).", "quantifier": "every data, random stream, noise vector", "why_tests_cant": "Every stream.", "anchors": ["proadv/statistics/signal/synthetic.py:synthetic_noise"]}
{"id": "C30", "title": "power_spectra overlap is a percentage of the block", "statement": "The documented 'percentage overlap' should make consecutive segments share overlap% of a block. The code passes the percentage to welch as a number of samples, so with block b > overlap the hop is b-overlap samples; the documented relation holds only for block = 100 (or overlap = 0).", "quantifier": "every overlap, block", "why_tests_cant": "A relation between all parameter values.", "anchors": ["proadv/statistics/signal/spectrum.py:power_spectra"]}
{"id": "C31", "title": "cdf is the standard normal distribution function", "statement": "For every finite float array, entry j of cdf(array) is the standard normal probability of (-inf, array[j]]; both numerical branches agree.", "quantifier": "every array, every real", "why_tests_cant": "Continuum of inputs; two formulas glued at |x|=1.", "anchors": ["proadv/statistics/distributions/normal.py:cdf"]}
{"id": "C32", "title": "cdf is monotone, symmetric and strictly between 0 and 1; sf is its complement", "statement": "cdf(x) in (0,1), x <= y implies cdf(x) <= cdf(y), cdf(-x) = 1-cdf(x), sf(x)+cdf(x) = 1, log_cdf = log cdf, log_sf = log sf.", "quantifier": "every real", "why_tests_cant": "Continuum of inputs.", "anchors": ["proadv/statistics/distributions/normal.py:cdf", "proadv/statistics/distributions/normal.py:sf", "proadv/statistics/distributions/normal.py:log_cdf", "proadv/statistics/distributions/normal.py:log_sf"]}
{"id": "C33", "title": "pdf is the Gaussian density and log_pdf its logarithm", "statement": "For std > 0, pdf(x,std,mean) = exp(-(x-mean)^2/(2 std^2))/(std*sqrt(2 pi)) > 0, it is maximal at mean, symmetric about mean, and log_pdf is its logarithm.", "quantifier": "every real x, mean, std > 0", "why_tests_cant": "Continuum of inputs.", "anchors": ["proadv/statistics/distributions/normal.py:pdf", "proadv/statistics/distributions/normal.py:log_pdf"]}
{"id": "C34", "title": "distribution functions reject empty and NaN arrays; integer arrays are silently truncated by cdf", "statement": "cdf, pdf, log_pdf, log_cdf, sf, log_sf raise ValueError on empty arrays and TypeError when NaN is present; but cdf of an integer-dtype array stores the results truncated toward zero (0 everywhere in exact arithmetic), and cdf of a scalar raises TypeError.", "quantifier": "every array", "why_tests_cant": "The input space is every finite array of every length; tests sample a handful of literals.", "anchors": ["proadv/statistics/distributions/normal.py:cdf", "proadv/statistics/distributions/normal.py:pdf", "proadv/statistics/distributions/normal.py:log_pdf", "proadv/statistics/distributions/normal.py:log_cdf", "proadv/statistics/distributions/normal.py:sf", "proadv/statistics/distributions/normal.py:log_sf"]}
{"id": "C35", "title": "skewtest and kurtotest return a statistic and a p-value", "statement": "Documented to return (z, p) for enough samples. The p-value calls cdf on a scalar, which raises TypeError, so neither test returns on any input.", "quantifier": "every data, every alternative", "why_tests_cant": "That no input at all succeeds is a universal statement.", "anchors": ["proadv/statistics/distributions/normal.py:skewtest", "proadv/statistics/distributions/normal.py:kurtotest"]}
{"id": "C36", "title": "brentq only evaluates inside the bracket and returns a point of it", "statement": "With xtol > 0 and rtol >= 0, every point at which brentq evaluates f, and the returned root, lies in [xa, xb]; no division by zero happens.", "quantifier": "every function, bracket, tolerance, iteration count", "why_tests_cant": "Interpolation steps could leave the bracket for adversarial f.", "anchors": ["proadv/statistics/optimize/optimize.py:brentq"]}
{"id": "C37", "title": "a converged brentq result is within tolerance of a true zero", "statement": "If f is continuous and brentq reports convergence at x then f has a zero within xtol + rtol*|x| of x.", "quantifier": "every continuous function and bracket", "why_tests_cant": "Every continuous function.", "anchors": ["proadv/statistics/optimize/optimize.py:brentq"]}
{"id": "C38", "title": "brentq error behaviour", "statement": "brentq raises ValueError iff xa >= xb or f(xa), f(xb) are non-zero with equal signs; reaching maxiter does not raise, contrary to the docstring, but returns the last iterate.", "quantifier": "every function, bracket, maxiter", "why_tests_cant": "Universally quantified error contract.", "anchors": ["proadv/statistics/optimize/optimize.py:brentq"]}
{"id": "C39", "title": "brentq reported function_calls", "statement": "When brentq converges in the loop the reported function_calls is the number of evaluations of f; when it hits maxiter >= 1 the report is one too small.", "quantifier": "every function, bracket, maxiter", "why_tests_cant": "Every run length.", "anchors": ["proadv/statistics/optimize/optimize.py:brentq"]}
{"id": "C40", "title": "fminbound evaluates only inside the bounds and returns a point inside", "statement": "For lower <= upper and tolerance > 0 every evaluation point and the returned point lie in [lower, upper].", "quantifier": "every target function, bounds", "why_tests_cant": "Every objective, including adversarial ones.", "anchors": ["proadv/statistics/optimize/optimize.py:fminbound", "proadv/statistics/optimize/optimize.py:_optimize_within_bounds"]}
{"id": "C41", "title": "fminbound's function_value is the least value seen", "statement": "The reported function value is the minimum of the target over all points evaluated: one of the values seen and at most each of them. This holds in exact and in rounded arithmetic, for every target whose values are ordered by <= (no NaN).", "quantifier": "every target function that never returns NaN, bounds, budgets", "why_tests_cant": "Every objective.", "anchors": ["proadv/statistics/optimize/optimize.py:_optimize_within_bounds"]}
{"id": "C42", "title": "fminbound respects its evaluation budget", "statement": "The reported evaluation count is the number of target calls and never exceeds max(2, max_evaluations); the loop always terminates; flag 1 is reported iff the budget was reached, unless a NaN was met, which gives flag 2.", "quantifier": "every target function", "why_tests_cant": "Every objective.", "anchors": ["proadv/statistics/optimize/optimize.py:_optimize_within_bounds"]}
{"id": "C43", "title": "fminbound's returned point attains the reported value", "statement": "Documented: function_value is the value at optimum. The code returns the last evaluated point instead of the best one, so the claim is false (witness); it holds when the last evaluation was an improvement.", "quantifier": "every target function", "why_tests_cant": "Depends on the whole run.", "anchors": ["proadv/statistics/optimize/optimize.py:_optimize_within_bounds"]}
{"id": "C44", "title": "replacements keep the length and leave non-spike samples alone", "statement": "Every successful call of last_valid_data, mean_value, median_value, simple/exponential/weighted_moving_average, ssa replacement returns an array of the same length whose entries outside spike_indices are the input entries; cubic_12points_polynomial does so up to rounding to the requested decimals, and so do linear_interpolation and polynomial_replacement for strictly increasing spikes (polynomial_replacement may round twice). This holds for IEEE floats too (no arithmetic law is used).", "quantifier": "every array, every spike set, every floating-point arithmetic", "why_tests_cant": "The input space is every finite array of every length; tests sample a handful of literals.", "anchors": ["proadv/filtration/replacement/replacements.py:last_valid_data", "proadv/filtration/replacement/replacements.py:mean_value", "proadv/filtration/replacement/replacements.py:median_value", "proadv/filtration/replacement/replacements.py:linear_interpolation", "proadv/filtration/replacement/replacements.py:cubic_12points_polynomial", "proadv/filtration/replacement/replacements.py:simple_moving_average", "proadv/filtration/replacement/replacements.py:exponential_moving_average", "proadv/filtration/replacement/replacements.py:weighted_moving_average", "proadv/filtration/replacement/replacements.py:ssa", "proadv/filtration/replacement/replacements.py:polynomial_replacement"]}
{"id": "C45", "title": "last_valid_data carries the last valid sample forward", "statement": "For strictly increasing spike indices not containing 0, each spike is replaced by the sample at the greatest non-spike index below it.", "quantifier": "every array and spike set", "why_tests_cant": "Runs of any length.", "anchors": ["proadv/filtration/replacement/replacements.py:last_valid_data"]}
{"id": "C46", "title": "last_valid_data at index 0 wraps around", "statement": "A spike at index 0 is replaced by the last sample of the array (negative index), not by an earlier sample.", "quantifier": "every array and spike set starting at 0", "why_tests_cant": "The input space is every finite array of every length; tests sample a handful of literals.", "anchors": ["proadv/filtration/replacement/replacements.py:last_valid_data"]}
{"id": "C47", "title": "last_valid_data is idempotent, mean_value is not", "statement": "Applying last_valid_data twice with the same strictly increasing spikes equals applying it once, unless both the first and the last sample are spikes (witness that it then changes); for mean_value a witness shows the second application changes the data.", "quantifier": "every array and sorted spike set", "why_tests_cant": "The input space is every finite array of every length; tests sample a handful of literals.", "anchors": ["proadv/filtration/replacement/replacements.py:last_valid_data", "proadv/filtration/replacement/replacements.py:mean_value"]}
{"id": "C48", "title": "mean_value and median_value use the statistic of the whole series, spikes included", "statement": "Every spike is set to mean(velocities) (median(velocities)) of the unmodified input (truncated toward zero for integer arrays). On an empty series both raise ValueError.", "quantifier": "every array and spike set", "why_tests_cant": "The input space is every finite array of every length; tests sample a handful of literals.", "anchors": ["proadv/filtration/replacement/replacements.py:mean_value", "proadv/filtration/replacement/replacements.py:median_value"]}
{"id": "C49", "title": "linear_interpolation puts interior spike runs on the chord of their neighbours", "statement": "For strictly increasing spikes, a maximal run s..e with s > 0 and e < n-1 is replaced by the values at s..e of the line through (s-1, v[s-1]) and (e+1, v[e+1]), rounded; data on a straight line is recovered exactly before rounding.", "quantifier": "every array and spike set", "why_tests_cant": "Runs of any position and length.", "anchors": ["proadv/filtration/replacement/replacements.py:linear_interpolation"]}
{"id": "C50", "title": "linear_interpolation boundary runs", "statement": "A run touching the end is replaced by the mean of the input (spikes included); a run touching only the beginning is replaced by the first valid sample after it, not the mean as documented.", "quantifier": "every array and spike set", "why_tests_cant": "Every boundary configuration.", "anchors": ["proadv/filtration/replacement/replacements.py:linear_interpolation"]}
{"id": "C51", "title": "linear_interpolation needs at least one spike and a float array", "statement": "With no spikes linear_interpolation raises IndexError instead of returning the data; on an integer array it raises ValueError; on a recording whose samples are all missing it raises ValueError whatever existing samples are listed.", "quantifier": "every array", "why_tests_cant": "Error contract over all arrays.", "anchors": ["proadv/filtration/replacement/replacements.py:linear_interpolation"]}
{"id": "C52", "title": "linear_interpolation never returns NaN and stays in the data range", "statement": "On NaN-free data with strictly increasing in-range spikes the output has no NaN and before rounding every value is between min and max of the input.", "quantifier": "every array and spike set", "why_tests_cant": "Runs of any position and length.", "anchors": ["proadv/filtration/replacement/replacements.py:linear_interpolation"]}
{"id": "C53", "title": "moving-average replacements take the smoothed value at the spike", "statement": "simple_moving_average and exponential_moving_average replacements set each spike to the trailing-window mean (resp. EMA) at that index, computed on data still containing the spike, and truncated toward zero when the recording is an integer array; every other sample is kept, and an error of the average is passed on.", "quantifier": "every array, spike set, parameters", "why_tests_cant": "The input space is every finite array of every length; tests sample a handful of literals.", "anchors": ["proadv/filtration/replacement/replacements.py:simple_moving_average", "proadv/filtration/replacement/replacements.py:exponential_moving_average"]}
{"id": "C54", "title": "weighted_moving_average replacement looks forward and fails near the end", "statement": "A spike at i < n-period is replaced by the weighted mean of samples i..i+period-1 (i.e. future samples and the spike itself), truncated toward zero when the recording is an integer array; a spike at i >= n-period raises; it never uses the trailing window of the documentation.", "quantifier": "every array, spike set, period", "why_tests_cant": "The input space is every finite array of every length; tests sample a handful of literals.", "anchors": ["proadv/filtration/replacement/replacements.py:weighted_moving_average"]}
{"id": "C55", "title": "kalman_filter replacement never returns data", "statement": "The Kalman replacement returns no array on any input: indexing the list of estimates by an index array raises TypeError.", "quantifier": "every input", "why_tests_cant": "That no input succeeds is universal.", "anchors": ["proadv/filtration/replacement/replacements.py:kalman_filter"]}
{"id": "C56", "title": "cubic_12points_polynomial boundary and failure behaviour", "statement": "A spike near the boundary (i <= 30 or i >= n-30) is replaced by the average of the raw sample before it (wrapping to the last sample for i = 0) and the next valid sample; if no valid sample remains to the right the call never succeeds (IndexError when all spikes are near the boundary); so a trailing spike always raises.", "quantifier": "every array and spike set", "why_tests_cant": "Every configuration.", "anchors": ["proadv/filtration/replacement/replacements.py:cubic_12points_polynomial"]}
{"id": "C57", "title": "cubic_12points_polynomial reproduces a straight line", "statement": "Expected of a cubic interpolation. The 12 left abscissae are paired with samples shifted by one: on the line alpha+beta*j an isolated interior spike i is replaced by alpha+beta*(i-1/2) (rounded) when interp1d is the not-a-knot cubic spline, half a step off; so the expectation holds only for beta = 0 and is false in general.", "quantifier": "every straight line", "why_tests_cant": "A relation over all lines.", "anchors": ["proadv/filtration/replacement/replacements.py:cubic_12points_polynomial"]}
{"id": "C58", "title": "polynomial_replacement control flow", "statement": "polynomial_replacement raises TypeError for a single spike, ValueError/IndexError when exactly one/no spike is below 10 but the first is in 1..10; a spike at index 10 is never modified except by rounding; when all spikes are >= 11, the value at a spike depends only on samples before it, and the regression is only ever given at most window samples.", "quantifier": "every array, spike set, predictor", "why_tests_cant": "Every combination of early spikes.", "anchors": ["proadv/filtration/replacement/replacements.py:polynomial_replacement"]}
{"id": "C59", "title": "detectors return sorted, distinct, in-range indices", "statement": "acceleration_thresholding, phasespace_thresholding, velocity_correlation, spherical_phasespace_thresholding and three_dimensional_kernel return strictly increasing indices below the number of samples, for every floating-point arithmetic.", "quantifier": "every input, every floating-point arithmetic", "why_tests_cant": "The input space is every finite array of every length; tests sample a handful of literals.", "anchors": ["proadv/filtration/detection/acceleration.py:acceleration_thresholding", "proadv/filtration/detection/phasespace.py:phasespace_thresholding", "proadv/filtration/detection/correlation.py:velocity_correlation", "proadv/filtration/detection/spherical.py:spherical_phasespace_thresholding", "proadv/filtration/detection/trivariatekernel.py:three_dimensional_kernel"]}
{"id": "C60", "title": "acceleration_thresholding flags exactly the samples exceeding both thresholds", "statement": "tag 1: i is returned iff i >= 1, (v[i]-v[i-1])*f > k_g*g and v[i] > mean + k_s*std (for k_g*g >= 0); tag 2 symmetric; any other tag raises ValueError.", "quantifier": "every array and threshold", "why_tests_cant": "The input space is every finite array of every length; tests sample a handful of literals.", "anchors": ["proadv/filtration/detection/acceleration.py:acceleration_thresholding"]}
{"id": "C61", "title": "acceleration_thresholding symmetry, disjointness and invariance", "statement": "For a threshold product k*g >= 0: tag 2 on v equals tag 1 on -v; tags 1 and 2 never flag the same sample; adding a constant to v changes nothing; larger thresholds flag subsets; constant data flags nothing.", "quantifier": "every array, threshold, offset", "why_tests_cant": "The input space is every finite array of every length; tests sample a handful of literals.", "anchors": ["proadv/filtration/detection/acceleration.py:acceleration_thresholding"]}
{"id": "C62", "title": "phasespace premodification removes spikes", "statement": "Documented: samples beyond the threshold are replaced by the preceding sample. The removable set is an intersection of two disjoint conditions, so for c2 >= 0 the data is returned unchanged on every input.", "quantifier": "every array, c1, c2 >= 0", "why_tests_cant": "That nothing is ever removed is universal.", "anchors": ["proadv/filtration/detection/phasespace.py:phasespace_thresholding_premodification"]}
{"id": "C63", "title": "premodification's unremovable indices", "statement": "The second output lists exactly the indices with |data[i]| <= c1*MAD, increasing (MAD = median absolute deviation).", "quantifier": "every array, c1", "why_tests_cant": "The input space is every finite array of every length; tests sample a handful of literals.", "anchors": ["proadv/filtration/detection/phasespace.py:phasespace_thresholding_premodification"]}
{"id": "C64", "title": "phasespace_thresholding flags exactly the samples outside one of the three Poincare ellipses", "statement": "i is returned iff one of the three rho values at i exceeds 1; where the coefficients are positive rho > 1 is the outside of the ellipse with those half-axes rotated by theta.", "quantifier": "every array", "why_tests_cant": "The input space is every finite array of every length; tests sample a handful of literals.", "anchors": ["proadv/filtration/detection/phasespace.py:phasespace_thresholding", "proadv/filtration/detection/poincare.py:calculate_rho"]}
{"id": "C65", "title": "phasespace_thresholding is invariant under sign flip and time reversal", "statement": "Flipping the sign of the series gives the same indices; reversing it gives the mirrored indices.", "quantifier": "every array", "why_tests_cant": "Every array.", "anchors": ["proadv/filtration/detection/phasespace.py:phasespace_thresholding"]}
{"id": "C66", "title": "phasespace_thresholding depends on the mean level", "statement": "Detection is expected to depend on fluctuations only; the code does not remove the mean, so adding a constant can flag additional samples (witness); a constant series flags nothing.", "quantifier": "every array, every offset", "why_tests_cant": "Invariance claim over all offsets.", "anchors": ["proadv/filtration/detection/phasespace.py:phasespace_thresholding"]}
{"id": "C67", "title": "velocity_correlation is invariant under offsets, common scaling and common sign flips", "statement": "Adding constants to the components, multiplying all of them by the same non-zero factor, gives the same indices (or the same error).", "quantifier": "every arrays, offsets, factors", "why_tests_cant": "The input space is every finite array of every length; tests sample a handful of literals.", "anchors": ["proadv/filtration/detection/correlation.py:velocity_correlation"]}
{"id": "C68", "title": "velocity_correlation fails when an ellipse axis is not real", "statement": "If for some pair of components either squared axis is not positive (or is NaN) and the number of samples is at least 3, the call raises ValueError, because the fallback of calculate_ab binds only to its second result.", "quantifier": "every arrays with n >= 3", "why_tests_cant": "Every degenerate configuration.", "anchors": ["proadv/filtration/detection/correlation.py:velocity_correlation", "proadv/filtration/detection/poincare.py:calculate_ab"]}
{"id": "C69", "title": "velocity_correlation rejects constant components", "statement": "If any of the components u, v, w is constant and n >= 3, velocity_correlation raises ValueError.", "quantifier": "every arrays", "why_tests_cant": "The input space is every finite array of every length; tests sample a handful of literals.", "anchors": ["proadv/filtration/detection/correlation.py:velocity_correlation"]}
{"id": "C70", "title": "calculate_rho is a rotation-invariant quadratic form", "statement": "rho >= 0, is unchanged by (x,y) -> (-x,-y), by theta -> theta+pi, and equals (x^2+y^2)/a^2 when a = b whatever theta. On arrays it is computed sample by sample; arrays that do not broadcast raise ValueError. When b is the pair returned by calculate_ab, two samples use one coefficient each in order, one sample is evaluated with both, and any other number of samples raises ValueError.", "quantifier": "every x, y, theta, a, b", "why_tests_cant": "Continuum.", "anchors": ["proadv/filtration/detection/poincare.py:calculate_rho"]}
{"id": "C71", "title": "calculate_ab returns the ellipse axes", "statement": "When both squared axes are positive the returned a, b solve a^2 cos^2 + b^2 sin^2 = (lambda*std1)^2 and a^2 sin^2 + b^2 cos^2 = (lambda*std2)^2.", "quantifier": "every std1, std2, theta, lambda", "why_tests_cant": "Continuum.", "anchors": ["proadv/filtration/detection/poincare.py:calculate_ab"]}
{"id": "C72", "title": "spherical thresholding ignores iteration and c_mean and is offset-invariant", "statement": "The returned indices do not depend on the iteration and c_mean arguments, nor on a constant added to the series.", "quantifier": "every series, offsets", "why_tests_cant": "The input space is every finite array of every length; tests sample a handful of literals.", "anchors": ["proadv/filtration/detection/spherical.py:spherical_phasespace_thresholding"]}
{"id": "C73", "title": "one NaN or infinity disables spherical thresholding", "statement": "If the series contains a NaN or an infinity (and has at least 2 samples) the result is empty whatever the other samples.", "quantifier": "every series with a non-finite sample", "why_tests_cant": "The input space is every finite array of every length; tests sample a handful of literals.", "anchors": ["proadv/filtration/detection/spherical.py:spherical_phasespace_thresholding"]}
{"id": "C74", "title": "spherical thresholding flags exactly the points outside the ellipsoid", "statement": "With positive half-axes and without intermediate rounding, sample i is flagged iff (x/a)^2+(y/b)^2+(z/c)^2 > 1.", "quantifier": "every point and half-axes", "why_tests_cant": "Continuum.", "anchors": ["proadv/filtration/detection/spherical.py:_spike_indices"]}
{"id": "C75", "title": "spherical thresholding on degenerate input", "statement": "Fewer than 2 samples raise ValueError; a constant series flags nothing.", "quantifier": "every constant series", "why_tests_cant": "The input space is every finite array of every length; tests sample a handful of literals.", "anchors": ["proadv/filtration/detection/spherical.py:spherical_phasespace_thresholding"]}
{"id": "C76", "title": "cutoff search returns the nearest qualifying profile point on each side", "statement": "The lower (upper) cutoff is the velocity at the largest index below (smallest index above) the peak, excluding the end points, whose force ratio and scaled force change are within the thresholds; if none, index 1 (resp. the last index).", "quantifier": "every profile, thresholds, peak", "why_tests_cant": "Every profile length and peak position.", "anchors": ["proadv/filtration/detection/bivariatekernel.py:_cutoff", "proadv/filtration/detection/trivariatekernel.py:_cutoff"]}
{"id": "C77", "title": "the minmod derivative picks the smaller one-sided difference", "statement": "At interior points the derivative equals the backward or the forward difference, with absolute value the smaller of the two; end points are 0; it is odd and shift-invariant, and exact on straight lines.", "quantifier": "every array", "why_tests_cant": "The input space is every finite array of every length; tests sample a handful of literals.", "anchors": ["proadv/filtration/detection/bivariatekernel.py:_derivative"]}
{"id": "C78", "title": "pollution_rate is a percentage", "statement": "pollution_rate is 100*(number of positions above xfil+k*std + number below -xfil-k*std)/n; it is in [0,100] when xfil + k*std >= 0 everywhere, and can exceed 100 otherwise (witness).", "quantifier": "every arrays, k", "why_tests_cant": "The input space is every finite array of every length; tests sample a handful of literals.", "anchors": ["proadv/filtration/detection/pollution.py:pollution_rate"]}
{"id": "C79", "title": "central differences are exact on lines and zero at the ends", "statement": "The first derivative used by phase-space and 3-D kernel detection equals the slope at interior points of a line, vanishes at both ends, is linear and shift-invariant (up to rounding in phase-space).", "quantifier": "every array", "why_tests_cant": "The input space is every finite array of every length; tests sample a handful of literals.", "anchors": ["proadv/filtration/detection/phasespace.py:calculate_derivatives", "proadv/filtration/detection/trivariatekernel.py:_derivatives"]}
{"id": "C80", "title": "the kernel rotation is a rigid motion by the regression angle; it does not decorrelate", "statement": "The transform used by the trivariate kernel preserves x^2+y^2 and is inverted by -theta; theta is the argument of (var u, cov(u,w)): its tangent is the least-squares slope of w on u, it lies in [-pi/2, pi/2], and offsets do not change it. The rotated components keep covariance C(VW - C^2)/(V^2 + C^2), so they are uncorrelated only if the data were, or lie on a line.", "quantifier": "every arrays", "why_tests_cant": "Continuum.", "anchors": ["proadv/filtration/detection/trivariatekernel.py:_rotation", "proadv/filtration/detection/trivariatekernel.py:_transform", "proadv/kernel/bivariate.py:_rotation"]}
{"id": "C81", "title": "kernel density helpers: weights sum to one, effective sample size is n, covariance is the unbiased one", "statement": "The weights sum to 1, net = n, factor = n^(-1/(d+4)), and the weighted covariance equals the sample covariance with n-1 denominator; datasets with more rows than columns or empty are rejected.", "quantifier": "every dataset", "why_tests_cant": "The input space is every finite array of every length; tests sample a handful of literals.", "anchors": ["proadv/filtration/detection/trivariatekernel.py:_weight", "proadv/filtration/detection/trivariatekernel.py:_covariance", "proadv/filtration/detection/trivariatekernel.py:_cov", "proadv/filtration/detection/trivariatekernel.py:_density"]}
{"id": "C82", "title": "kernel detection flags exactly the outside of the cutoff ellipse", "statement": "Given a density on a g x g grid (g >= 2) with positive peak, kernel succeeds; the cutoffs are the grid values found by the cutoff search along the peak's column and row with thresholds sqrt(2 ln n)*std/sqrt(n); it flags exactly the increasing indices whose rotated coordinates lie outside the ellipse centred at the cutoff mid-points with half-axes half the cutoff widths (a zero-width interval flags every sample off its line). three_dimensional_kernel returns the union over the three planes, or the first plane's error. If the density estimate contains a NaN, kernel raises IndexError.", "quantifier": "every data, every density estimate", "why_tests_cant": "Every density.", "anchors": ["proadv/filtration/detection/trivariatekernel.py:kernel", "proadv/filtration/detection/trivariatekernel.py:three_dimensional_kernel"]}
{"id": "C83", "title": "the 2-D histogram is a probability distribution on the grid", "statement": "For n >= 1 finite samples, entry (i,j) of the histogram is the fraction of samples whose coordinates fall in cells i and j; all entries are >= 0 and they sum to 1. grid = 0 raises IndexError.", "quantifier": "every dataset, every grid >= 1", "why_tests_cant": "The input space is every finite array of every length; tests sample a handful of literals.", "anchors": ["proadv/kernel/bivariate.py:_histogram", "proadv/kernel/bivariate.py:_accumarray"]}
{"id": "C84", "title": "histogram binning rule", "statement": "Every finite coordinate t is put in cell min(ceil(grid*t), grid-1) (0 for t <= 0); so cell 0 holds exactly the coordinates <= 0 (the exact minima), an inner cell c holds ((c-1)/grid, c/grid], and NaN goes to the last cell.", "quantifier": "every finite t and NaN, every grid >= 1", "why_tests_cant": "Continuum.", "anchors": ["proadv/kernel/bivariate.py:_histogram"]}
{"id": "C85", "title": "scaling maps the data range onto [0,1]", "statement": "For non-constant rows, every transformed coordinate is in [0,1], the minimum maps to 0 and the maximum to 1, order is preserved.", "quantifier": "every dataset", "why_tests_cant": "The input space is every finite array of every length; tests sample a handful of literals.", "anchors": ["proadv/kernel/bivariate.py:_scaling", "proadv/kernel/bivariate.py:_transform"]}
{"id": "C86", "title": "the K constants are signed double factorials", "statement": "_k(s) = (-1)^s * (1*3*...*(2s-1)) / sqrt(2 pi) for every s >= 0.", "quantifier": "every s", "why_tests_cant": "All s.", "anchors": ["proadv/kernel/bivariate.py:_k"]}
{"id": "C87", "title": "the bandwidth root search always terminates with a value in [0, 0.1]", "statement": "root(fun, n) terminates for every function and every sample size after at most 37 bracket attempts (37 are needed for n <= 50 when no bracket works). Its result is that of brentq on the first bracket a, 2a, 4a, ... below 0.1 that does not raise ValueError (other exceptions propagate), else that of fminbound; hence it lies in [0, 0.1] if the library searches stay in their interval.", "quantifier": "every function, every n", "why_tests_cant": "Termination for every function.", "anchors": ["proadv/kernel/bivariate.py:root"]}
{"id": "C88", "title": "the discrete cosine transform accepts only square matrices of even order", "statement": "Non-square and empty input raise ValueError; for even order the row reordering is a permutation and the transform succeeds; for odd order >= 3 the weight product cannot be formed and it raises ValueError; order 1 is accepted but yields a 2x2 matrix.", "quantifier": "every matrix shape", "why_tests_cant": "Every shape.", "anchors": ["proadv/kernel/bivariate.py:_discrete_cosine_2d", "proadv/kernel/bivariate.py:_discrete_cosine_1d"]}
{"id": "C89", "title": "bivariate_kernel: axes, density and rejected inputs", "statement": "For finite non-constant rows and an even grid the call succeeds; x and y axes start at the data minimum, have constant step, exactly grid points, the last being the data maximum; the density is the twice transformed damped histogram with negative values replaced by 2^-52. No returned density value is negative. Odd grids >= 3, empty data raise ValueError, grid 0 IndexError; a constant row or grid 1 never gives a result.", "quantifier": "every dataset, bandwidths, grid; every behaviour of the scipy searches that raises at most ValueError", "why_tests_cant": "The input space is every finite array of every length; tests sample a handful of literals.", "anchors": ["proadv/kernel/bivariate.py:bivariate_kernel"]}
{"id": "C90", "title": "the psi recursion terminates with real values of alternating sign", "statement": "The functional recursion behind the bandwidth terminates for every index pair, evaluating psi exactly 2^(6-(s0+s1))-1 times when s0+s1 <= 4 and once otherwise. If the squared coefficients are non-negative with a positive one off the first row and column, every functional is a finite non-zero real of sign (-1)^(s0+s1), and the stationary time of _evolve is a positive real for every t.", "quantifier": "every index pair, every t, every sample count, every coefficient matrix", "why_tests_cant": "Every index pair.", "anchors": ["proadv/kernel/bivariate.py:_func"]}
{"id": "C91", "title": "low_to_low rescales frequency", "statement": "The transfer function after low_to_low(z,p,k,dc) at s equals the original one at s/dc.", "quantifier": "every zeros, poles, gain, dc != 0, s", "why_tests_cant": "Identity of rational functions.", "anchors": ["proadv/statistics/signal/butter.py:low_to_low"]}
{"id": "C92", "title": "low_to_high inverts frequency", "statement": "After low_to_high the transfer function at s equals the original at dc/s, provided prod(-z)/prod(-p) is real.", "quantifier": "every zeros, poles, gain, dc, s != 0", "why_tests_cant": "Identity of rational functions.", "anchors": ["proadv/statistics/signal/butter.py:low_to_high"]}
{"id": "C93", "title": "low_to_band substitutes (s^2+w0^2)/(bw s)", "statement": "After low_to_band the transfer function at s equals the original at (s^2+pc^2)/(pw*s).", "quantifier": "every zeros, poles, gain, pc, pw, s", "why_tests_cant": "Identity of rational functions.", "anchors": ["proadv/statistics/signal/butter.py:low_to_band"]}
{"id": "C94", "title": "low_to_stop substitutes (bw s)/(s^2+w0^2)", "statement": "After low_to_stop the transfer function at s equals the original at pw*s/(s^2+pc^2), provided prod(-z)/prod(-p) is real.", "quantifier": "every zeros, poles, gain, pc, pw, s", "why_tests_cant": "Identity of rational functions.", "anchors": ["proadv/statistics/signal/butter.py:low_to_stop"]}
{"id": "C95", "title": "bilinear substitutes 2 fs (z-1)/(z+1)", "statement": "After bilinear the transfer function at z equals the analog one at 2*sr*(z-1)/(z+1), provided the gain ratio is real.", "quantifier": "every zeros, poles, gain, sr, z != -1", "why_tests_cant": "Identity of rational functions.", "anchors": ["proadv/statistics/signal/butter.py:bilinear"]}
{"id": "C96", "title": "transforms reject improper filters and keep proper ones proper", "statement": "All transforms raise ValueError when there are more zeros than poles; for n_z <= n_p: low_to_low keeps the counts, low_to_high and bilinear return n_p zeros and n_p poles, low_to_band returns n_p + n_z zeros and 2 n_p poles, low_to_stop returns 2 n_p zeros and 2 n_p poles.", "quantifier": "every zeros, poles", "why_tests_cant": "Every list sizes.", "anchors": ["proadv/statistics/signal/butter.py:_relative_scale"]}
{"id": "C97", "title": "Butterworth prototype poles", "statement": "buttap(N) has no zeros, exactly N poles, all of modulus 1, all with negative real part, closed under conjugation, gain 1; non-integral or negative N raises ValueError.", "quantifier": "every N", "why_tests_cant": "Every order.", "anchors": ["proadv/statistics/signal/butter.py:buttap"]}
{"id": "C98", "title": "Butterworth prototype is maximally flat", "statement": "|H(i w)|^2 = 1/(1+w^(2N)) for the prototype returned by buttap(N), N >= 1; it is 1 at w=0, 1/2 at w=1 and strictly decreasing in |w|. (Order 0 is accepted too and gives the constant filter 1, for which the formula fails.)", "quantifier": "every order N >= 1, every real w", "why_tests_cant": "Every order.", "anchors": ["proadv/statistics/signal/butter.py:buttap"]}
{"id": "C99", "title": "digital Butterworth filters are stable", "statement": "For every order and critical frequencies accepted by butterworth (lp, hp, bp, bs, output zps) all returned poles of the digital filter lie strictly inside the unit circle; analog poles lie strictly in the left half plane. Zeros and poles come in conjugate pairs, so the coefficients of output nd are real.", "quantifier": "every order, frequencies, type", "why_tests_cant": "Every order.", "anchors": ["proadv/statistics/signal/butter.py:butterworth"]}
{"id": "C100", "title": "critical frequencies are half-power frequencies; full magnitude response", "statement": "For every filter of order N >= 1 returned by butterworth, |H|^2 = 1/(1+r^(2N)) at every frequency, r being x/w (lp), w/x (hp), (x^2-w0 w1)/((w1-w0)x) (bp), its inverse (bs), with tan(pi f/2) in place of f for digital filters; hence |H|^2 = 1/2 at every critical frequency. Digital gains at 0 and Nyquist: lp 1 and 0, hp 0 and 1, bp 0 and 0, bs 1 and 1.", "quantifier": "every order, frequencies, type, every evaluation frequency", "why_tests_cant": "Every order.", "anchors": ["proadv/statistics/signal/butter.py:butterworth"]}
{"id": "C101", "title": "butterworth argument validation", "statement": "butterworth succeeds exactly when: sr is None or a scalar (digital only), all frequencies are positive, digital ones are below Nyquist, the first two are increasing, the output form is known, the order is a natural number, lp/hp get one frequency, bp/bs at least two, and the type is known. Otherwise it raises ValueError, or NotImplementedError if only the type is unknown.", "quantifier": "every arguments", "why_tests_cant": "Every combination and order of invalid arguments.", "anchors": ["proadv/statistics/signal/butter.py:butterworth", "proadv/statistics/signal/butter.py:_valid_g"]}
{"id": "C102", "title": "numerator/denominator output expands the zero-pole form", "statement": "The coefficient arrays returned by xyz_to_ptf, evaluated as polynomials at any s, equal gain*prod(s-z) and prod(s-p).", "quantifier": "every zeros, poles, gain, s", "why_tests_cant": "Identity of polynomials.", "anchors": ["proadv/statistics/signal/butter.py:xyz_to_ptf"]}
{"id": "C103", "title": "phasespace_thresholding's third ellipse has the documented axes", "statement": "Expected: the axes a3, b3 of the c / d2c plane satisfy a3^2 cos^2 + b3^2 sin^2 = (lambda*std_c)^2 and a3^2 sin^2 + b3^2 cos^2 = (lambda*std_d2c)^2 (the equations calculate_ab solves). The code divides the square root by f = cos^2 - sin^2 instead of the radicand, so the axes solve the equations with right-hand sides divided by f; the claim is false (theta = pi/6) and the code flags a subset of the points outside the true ellipse.", "quantifier": "every standard deviations, lambda, angle with positive radicands and f > 0", "why_tests_cant": "Continuum; a test on one series cannot tell a wrong axis from a right one unless the sample lies between the two ellipses.", "anchors": ["proadv/filtration/detection/phasespace.py:calculate_parameters", "proadv/filtration/detection/poincare.py:calculate_ab"]}
{"id": "C104", "title": "velocity_correlation raises on strongly correlated components", "statement": "If |sum u*v| >= sum u^2 for the centred components u, v (regression slope at least 1 in magnitude, angle at least 45 degrees) and n >= 3, velocity_correlation raises ValueError whatever w is.", "quantifier": "every u, v, w of length n >= 3", "why_tests_cant": "The failing region is an open-ended set of arrays; tests sample a handful.", "anchors": ["proadv/filtration/detection/correlation.py:velocity_correlation", "proadv/filtration/detection/poincare.py:calculate_ab"]}
{"id": "C105", "title": "spherical_phasespace_thresholding's rotation angle depends on the end samples only", "statement": "The numerator of the rotation angle, sum of c*gradient(c) for the centred series c, telescopes to c[n-1]^2 - c[0]^2 + (c[0]*c[1] - c[n-2]*c[n-1])/2: it depends only on the first two and last two centred samples. If the first and last centred samples are zero, the angle is 0 and no rotation happens whatever the interior samples are.", "quantifier": "every series of length >= 2", "why_tests_cant": "The cancellation holds for all lengths and all interior values; a sampled run only shows one number.", "anchors": ["proadv/filtration/detection/spherical.py:spherical_phasespace_thresholding"]}
{"id": "C106", "title": "spherical_phasespace_thresholding is invariant under a sign flip", "statement": "spherical_phasespace_thresholding(-c) returns the same result (indices or exception) as spherical_phasespace_thresholding(c).", "quantifier": "every finite series", "why_tests_cant": "A symmetry relates every input to its mirror image; tests compare finitely many pairs.", "anchors": ["proadv/filtration/detection/spherical.py:spherical_phasespace_thresholding"]}
{"id": "C107", "title": "p-value rule of skewtest and kurtotest", "statement": "Given a scalar-capable cdf returning the standard normal distribution function, the p-value rule of skewtest/kurtotest is: 'less' P(Z <= z), 'greater' P(Z > z), 'two-sided' P(|Z| > |z|); each lies in [0, 1], less + greater = 1, and two-sided is twice the smaller of the other two. Any other alternative raises ValueError.", "quantifier": "every real z and every alternative", "why_tests_cant": "In the shipped code cdf cannot take a scalar, so no run of either test ever reaches a p-value (C35); the rule is only visible by reading the code.", "anchors": ["proadv/statistics/distributions/normal.py:skewtest", "proadv/statistics/distributions/normal.py:kurtotest"]}
{"id": "C108", "title": "kernel cutoffs bracket the density peak except when it is at the first grid point", "statement": "The lower cutoff index is at most the peak index iff the peak is not index 0; the upper one is at least the peak index; lower <= upper; and they coincide (zero-width ellipse) exactly when the profile has two points or the peak is at index 0 and index 1 qualifies.", "quantifier": "every profile, threshold and peak position", "why_tests_cant": "The degenerate configuration needs a density whose maximum is on the grid border; no sampled data set is guaranteed to reach it.", "anchors": ["proadv/filtration/detection/trivariatekernel.py:_cutoff", "proadv/filtration/detection/bivariatekernel.py:_cutoff"]}
{"id": "C109", "title": "_discrete_cosine_1d is not the discrete cosine transform", "statement": "The pass sums c[src(i), k] cos(pi i/(2n) + 2 pi j k/n) over k along the ROW (np.fft.fft works on the last axis), with src the even-odd reordering. With the Fourier transform down the columns the same reordering and weights give exactly the DCT-II; the code's result differs already on [[1,0],[0,0]].", "quantifier": "every even order and every real matrix; refutation by witness", "why_tests_cant": "An identity over all real matrices of all even orders.", "anchors": ["proadv/kernel/bivariate.py:_discrete_cosine_1d"]}
{"id": "C110", "title": "the bivariate density is not normalised", "statement": "A density should integrate to 1 over its grid. Because the forward transform is applied twice (instead of its inverse), the returned matrix does not: for the samples (0,0), (1,1), zero bandwidths and a grid of 2 its total mass exceeds 8.", "quantifier": "counterexample, for every behaviour of the scipy searches", "why_tests_cant": "A refutation that holds for every behaviour of the external root search.", "anchors": ["proadv/kernel/bivariate.py:bivariate_kernel"]}
{"id": "C111", "title": "Default digital second-order sections multiply to the filter", "statement": "For every filter whose zeros and poles come in conjugate pairs (real roots exactly real, others further from the real axis than the tolerance), xyz_to_sop with ag=False and the default pairing never fails. It returns max(1, ceil(max(len zeros, len poles)/2)) rows of six real coefficients with leading denominator coefficient 1; the product of the row numerators in z^-1 is gain times the product of (1 - zero z^-1), likewise for the denominators, so the cascade response equals the filter response. Holds for every tie-breaking of argsort.", "quantifier": "all zero/pole lists of any length closed under conjugation, all gains, all evaluation points, all argsort tie orders", "why_tests_cant": "The pairing loop removes entries by data-dependent distance; a lost or doubled root shows only for particular root configurations, of which there are infinitely many.", "anchors": ["proadv/statistics/signal/butter.py:xyz_to_sop", "proadv/statistics/signal/butter.py:_cxr", "proadv/statistics/signal/butter.py:_lone_xyzsop"]}
{"id": "C112", "title": "Analog (minimal) second-order sections multiply to the filter", "statement": "With the minimal pairing (the default and only choice for analog filters) a proper filter with conjugate-paired roots whose zeros are all real, or whose zeros and poles are both even in number, is converted into ceil(len poles/2) rows of real coefficients. The product of the row numerators as polynomials is gain times the product of (s - zero), the product of the denominators is the product of (s - pole), so the cascade response equals the filter response at every point. A constant filter gives the single row [0,0,k,0,0,1].", "quantifier": "all proper zero/pole lists of any length closed under conjugation satisfying the parity condition, all gains, all points, all argsort tie orders", "why_tests_cant": "Sections of degree one and two are mixed depending on which pole is closest to the axis; the number of orders in which the loop can consume roots grows factorially.", "anchors": ["proadv/statistics/signal/butter.py:xyz_to_sop", "proadv/statistics/signal/butter.py:_lone_xyzsop"]}
{"id": "C113", "title": "Every pairing of xyz_to_sop is sound, and what it rejects", "statement": "Whatever pairing is requested, rows that are returned multiply to the given filter and have the documented count. An unknown pairing, a non-minimal pairing of an analog filter, a minimal pairing with more zeros than poles, and zeros with unequal numbers above and below the real axis raise ValueError. The minimal and keep-odd pairings raise IndexError on legitimate filters: minimal when the only real pole is the closest to the axis and no zero is real; keep-odd when all poles are real and the only real zero is nearer to them than the complex zeros.", "quantifier": "all filters with conjugate-paired roots, all pairings, both domains; the IndexError families are quantified over all such filters", "why_tests_cant": "Soundness is about every order in which roots can be consumed; the failing families are unbounded in the number of roots.", "anchors": ["proadv/statistics/signal/butter.py:xyz_to_sop", "proadv/statistics/signal/butter.py:_closest_real_complex_i", "proadv/statistics/signal/butter.py:_cxr"]}
{"id": "C114", "title": "butterworth(output='sop') always succeeds and realises the designed filter", "statement": "For every order, cutoff, type, domain and sampling rate that butterworth accepts, output='sop' returns rows of real coefficients (no IndexError or failed assertion from the pairing loop), provided no root lies strictly between the real axis and the tolerance. The product of the section responses is the transfer function of the 'zps' output, everywhere for analog filters and at every nonzero z for digital ones, where all leading denominator coefficients are 1.", "quantifier": "all orders, cutoff lists, four types, both domains, all sampling rates, all evaluation points, any choice of complex square root and argsort tie order", "why_tests_cant": "Covers the combination of design and pairing for arbitrary order; the minimal pairing used for analog filters does fail on other filters, so success depends on where Butterworth zeros lie.", "anchors": ["proadv/statistics/signal/butter.py:butterworth", "proadv/statistics/signal/butter.py:xyz_to_sop"]}
{"id": "C115", "title": "The dictionary of _density holds Scott's bandwidth, its Cholesky factor and the log-determinant", "statement": "For d rows of n >= max(d, 2) samples, with a Cholesky routine that returns an upper triangular factor R with positive diagonal and R^T R equal to its argument, _density returns the factor f = n^(-1/(d+4)), covariance f^2 S, Cholesky factor f R and log = ln det(2 pi f^2 S), S being the unbiased sample covariance matrix. The two-dimensional Cholesky routine succeeds exactly on positive definite matrices, returning such a factor, and raises LinAlgError otherwise.", "quantifier": "all dimensions d, all sample counts, all real samples; all real symmetric 2x2 matrices", "why_tests_cant": "The log-determinant identity holds for matrices of every size; a test fixes the dimension.", "anchors": ["proadv/filtration/detection/trivariatekernel.py:_density", "proadv/filtration/detection/trivariatekernel.py:_covariance", "proadv/filtration/detection/trivariatekernel.py:_determination", "proadv/filtration/detection/trivariatekernel.py:_cholesky", "proadv/filtration/detection/trivariatekernel.py:_cov"]}
{"id": "C116", "title": "The grid density of kernel is a Gaussian kernel estimate of the rotated samples; the returned estimation is not", "statement": "On n >= 2 points with positive definite covariance, the density used for the cutoffs is, at each grid node, the mean over the points of the bivariate normal density centred at the point with covariance n^(-1/3) S. It is positive and integrates to one over the plane. The estimation returned beside the indices uses the same grid and covariance, but its kernels are centred at the samples before rotation. Returning it does not affect the indices.", "quantifier": "all samples, all grids, all evaluation points", "why_tests_cant": "Normalisation is an integral over the plane, and the node order of the reshaped grid has to be right for every grid size.", "anchors": ["proadv/filtration/detection/trivariatekernel.py:kernel", "proadv/filtration/detection/trivariatekernel.py:_evolve", "proadv/filtration/detection/trivariatekernel.py:_extraction", "proadv/filtration/detection/trivariatekernel.py:_estimation", "proadv/filtration/detection/trivariatekernel.py:_position", "proadv/filtration/detection/trivariatekernel.py:_density"]}
{"id": "C117", "title": "trivariatekernel.kernel from samples to indices: what it rejects and what it flags", "statement": "A grid of 0 raises IndexError as soon as there is a sample, before anything is said about the samples. On every other grid fewer than two samples, or a NaN or infinity in either component, raise ValueError; at least two finite samples on one line (variance product equal to squared covariance) raise LinAlgError; otherwise a grid of 1 raises IndexError and any larger grid succeeds. No samples at all are a ValueError on every grid. In the successful case the cutoffs are found along the column and row of the first peak of the kernel density of the rotated samples, and when both cutoff intervals have positive width exactly the samples outside the inscribed ellipse are flagged. Consequently three_dimensional_kernel raises LinAlgError on constant records (grid at least 1) and on every finite record of two or three samples (grid at least 2), and ValueError on records with a NaN or an infinity (grid at least 1).", "quantifier": "all pairs of equally long sample lists including non-finite values, all grid sizes", "why_tests_cant": "The boundary between success and LinAlgError is a measure-zero set of inputs, and success has to be shown for all inputs off it.", "anchors": ["proadv/filtration/detection/trivariatekernel.py:kernel", "proadv/filtration/detection/trivariatekernel.py:_density", "proadv/filtration/detection/trivariatekernel.py:_peak", "proadv/filtration/detection/trivariatekernel.py:_cutoff", "proadv/filtration/detection/trivariatekernel.py:_rotation", "proadv/filtration/detection/trivariatekernel.py:_transform", "proadv/filtration/detection/trivariatekernel.py:_scaling", "proadv/filtration/detection/trivariatekernel.py:three_dimensional_kernel", "proadv/filtration/detection/trivariatekernel.py:_profile"]}
{"id": "C118", "title": "The trivariate kernel detector does not see a constant offset", "statement": "Adding a constant to either component leaves the result of kernel unchanged, whether indices or an exception; so does adding a constant to the record given to three_dimensional_kernel.", "quantifier": "all equally long finite sample lists of any length, all real offsets, all grid sizes including 0 and 1", "why_tests_cant": "A metamorphic relation over all records and offsets through rotation, grid, density, peak search and cutoffs; in floating point a test can only check it approximately.", "anchors": ["proadv/filtration/detection/trivariatekernel.py:kernel", "proadv/filtration/detection/trivariatekernel.py:three_dimensional_kernel", "proadv/filtration/detection/trivariatekernel.py:_rotation", "proadv/filtration/detection/trivariatekernel.py:_transform", "proadv/filtration/detection/trivariatekernel.py:_scaling", "proadv/filtration/detection/trivariatekernel.py:_cutoff"]}
{"id": "C119", "title": "The trivariate kernel detector depends on the unit of velocity", "statement": "Multiplying both components by s > 0 leaves the grid nodes and the peak node in place and the profile ratios unchanged, and multiplies the cutoff thresholds by s, because sqrt(2 ln n) sigma / sqrt n carries a unit while the ratios compared with it do not. For every record not on one line, small enough s makes both searches fall through (cutoffs at the second and the last node) and large enough s puts the cutoffs next to the peak. There is a record of eight samples whose flagged indices differ between two units.", "quantifier": "all equally long finite sample lists not on one line, all grids of at least two points, all s > 0; the last sentence is an existence claim", "why_tests_cant": "The limits are statements about all sufficiently small or large scales for every record.", "anchors": ["proadv/filtration/detection/trivariatekernel.py:kernel", "proadv/filtration/detection/trivariatekernel.py:_cutoff", "proadv/filtration/detection/trivariatekernel.py:_peak"]}
{"id": "C120", "title": "The rotation of spherical thresholding and the mean it passes on", "statement": "_rotation by a non-zero angle t turns the point (c, dc, dc2) about the dc axis: the result differs from (c cos t + dc2 sin t, dc, dc2 cos t - c sin t) by at most 5e-5 (|c| + |dc2| + 1) in the first and third coordinate and 5e-5 in the second, and it equals the 4-decimal formula exactly; angle 0 leaves the point alone. _descript returns the centred data and, at iteration 1, the rounded mean, otherwise the rounded sum of the previous mean and the mean.", "quantifier": "every angle, every finite point, every non-empty finite series", "why_tests_cant": "Angles and points form a continuum; a sign error shows only for some of them.", "anchors": ["proadv/filtration/detection/spherical.py:_rotation", "proadv/filtration/detection/spherical.py:_descript"]}
{"id": "C121", "title": "Decision rule of spherical_phasespace_thresholding from samples to indices", "statement": "On finite data of length at least 2, index i is returned iff the rotated point of sample i is flagged against the half-axes around(around(sqrt(2 ln n)) * std) of the three rotated coordinates, where a point with third coordinate 0 is flagged iff its squared length exceeds that of the rounded surface point, and a point with non-zero third coordinate additionally needs non-zero half-axes a, b and a non-negative rounded square of the surface point's third coordinate.", "quantifier": "every finite series of length >= 2", "why_tests_cant": "An exact characterisation over all series; sampled series cannot exclude extra or missing indices.", "anchors": ["proadv/filtration/detection/spherical.py:spherical_phasespace_thresholding", "proadv/filtration/detection/spherical.py:_parameters", "proadv/filtration/detection/spherical.py:_spike_indices"]}
{"id": "C122", "title": "Rounding in _spike_indices hides arbitrarily large spikes", "statement": "With half-axes 1, 1, 10 every point (5t, 12t, z) with t >= 1 and 0 < z <= 1/2 lies outside the ellipsoid by a factor of at least 13t and is never flagged: both surface coordinates are rounded up, the square of the third becomes negative and its root NaN.", "quantifier": "every t >= 1, 0 < z <= 1/2", "why_tests_cant": "The loss happens on a thin set of directions at every distance.", "anchors": ["proadv/filtration/detection/spherical.py:_spike_indices"]}
{"id": "C123", "title": "mean of a string averages its leading one-character numbers", "statement": "mean(s) of a non-empty string s is the average of the numbers its leading characters stand for, up to the first character that is not a number by itself; so mean('12') is 1.5, mean('1.5') is 1, and a string that does not begin with a digit has mean NaN. The empty string raises TypeError; no string yields 'Invalid input.'.", "quantifier": "every string, every float arithmetic", "why_tests_cant": "Strings of every length and content.", "anchors": ["proadv/statistics/descriptive.py:mean"]}
{"id": "C124", "title": "xyz_to_ptf for several rows of zeros", "statement": "With rows of zeros of one length m > 0 whose first row comes in conjugate pairs, and one gain or a gain per row, xyz_to_ptf returns one real polynomial of degree m per row that agrees at every real point with the real part of gain * prod(s - zero), and exactly everywhere for rows that come in conjugate pairs. Otherwise it raises: ValueError when the first row is not conjugate-closed, IndexError for no rows or too few gains, AttributeError for empty rows. Only the first row is tested, so a later complex row is silently truncated to its real part.", "quantifier": "every list of rows, poles and gains", "why_tests_cant": "A polynomial identity at every point for every row list.", "anchors": ["proadv/statistics/signal/butter.py:xyz_to_ptf"]}
{"id": "C125", "title": "polynomial_replacement restores polynomial signals", "statement": "A signal equal to a polynomial of degree at most the regression degree at every sample outside its spikes is restored at every sample, up to the final rounding, whatever the spike values (NaN included), provided the spikes increase, are not a single one, none lies before index 11 or within the first degree samples, and the window exceeds the degree. The regression enters as a least-squares contract, which is satisfiable and which the model of _create_model meets (C204).", "quantifier": "every polynomial, degree, length, spike list, window and rounding", "why_tests_cant": "Exact restoration for all polynomials and spike patterns.", "anchors": ["proadv/filtration/replacement/replacements.py:polynomial_replacement", "proadv/filtration/replacement/replacements.py:_create_model"]}
{"id": "C126", "title": "power_spectra: rejected arguments, sizes and closed form", "statement": "A negative block raises ValueError; empty data give two empty arrays; otherwise block > len(data) or overlap >= block raise ValueError; otherwise both results have block//2+1 entries (onesided) or block. On finite data with block >= 3 and a non-zero sampling frequency the frequencies are k*fs/block (upper half negative when two-sided) and entry k is the average, over the (n-overlap)//(block-overlap) segments that start block-overlap samples apart, of |DFT of the Hann-windowed, mean-removed segment|^2 / (fs * sum of squared window), doubled in the one-sided case strictly between 0 and Nyquist.", "quantifier": "every series, sampling frequency, overlap, block; sizes and errors for every float arithmetic", "why_tests_cant": "An exact characterisation for every block length and overlap.", "anchors": ["proadv/statistics/signal/spectrum.py:power_spectra"]}
{"id": "C127", "title": "power_spectra ignores the samples after the last whole segment", "statement": "Two series of one length that agree on the first ((n-overlap)//(block-overlap) - 1)*(block-overlap) + block samples have the same result, error or spectrum.", "quantifier": "every pair of series, every parameter, every float arithmetic", "why_tests_cant": "Quantifies over all tails.", "anchors": ["proadv/statistics/signal/spectrum.py:power_spectra"]}
{"id": "C128", "title": "Energy of power_spectra", "statement": "The sum of the spectrum times the bin width fs/block is the average over the segments of the variance weighted by the squared window; one-sided and two-sided spectra have the same area, and it does not depend on the sampling frequency.", "quantifier": "every finite series, block >= 3, overlap < block, non-zero sampling frequency", "why_tests_cant": "Parseval's identity for every block length.", "anchors": ["proadv/statistics/signal/spectrum.py:power_spectra"]}
{"id": "C129", "title": "power_spectra is non-negative and quadratic", "statement": "With a positive sampling frequency no entry is negative; the data s*x+t have s^2 times the spectrum of x at the same frequencies, so an offset is invisible and a sign change too.", "quantifier": "every finite series, every s, t", "why_tests_cant": "Identities over all reals.", "anchors": ["proadv/statistics/signal/spectrum.py:power_spectra"]}
{"id": "C130", "title": "power_spectra is invariant under time reversal", "statement": "When block-overlap divides n-overlap, so that the segments cover the series, the reversed series has the same spectrum.", "quantifier": "every finite series, block >= 3", "why_tests_cant": "A symmetry of all series.", "anchors": ["proadv/statistics/signal/spectrum.py:power_spectra"]}
{"id": "C131", "title": "power_spectra: NaN samples and blocks of two", "statement": "One NaN among the samples covered by the segments makes every entry of the spectrum NaN (the frequencies are unaffected). With block = 2 the symmetric Hann window is identically zero and the spectrum of all finite data is NaN.", "quantifier": "every series, every position of the NaN", "why_tests_cant": "Every position and every parameter.", "anchors": ["proadv/statistics/signal/spectrum.py:power_spectra"]}
{"id": "C132", "title": "kalman_filter forgets its start and its covariance settles", "statement": "For R > 0, Q >= 0 and a non-negative initial covariance, two runs on the same measurements from initial estimates x0 and x0' differ in estimate i by at most (R/(Q+R))^(i+1)*|x0-x0'|. The covariance approaches the non-negative root s of s^2+Q*s=Q*R, and the distance shrinks at least by the factor (R/(Q+R))^2 per measurement; over the reals that root is (sqrt(Q^2+4QR)-Q)/2.", "quantifier": "every finite series of every length, every initial state", "why_tests_cant": "An asymptotic bound at every index of series of every length.", "anchors": ["proadv/statistics/series.py:kalman_filter"]}
{"id": "C133", "title": "kalman_filter is linear in its initial estimate and measurements", "statement": "Filtering a*z+b*z' from a*x+b*x' gives a times the estimates for z from x plus b times the estimates for z' from x'.", "quantifier": "every pair of finite series of equal length, all coefficients, R > 0, Q >= 0", "why_tests_cant": "Superposition for all series and coefficients.", "anchors": ["proadv/statistics/series.py:kalman_filter"]}
{"id": "C134", "title": "acceleration_thresholding flags few samples and is blind on short series", "statement": "With k_sigma > 0 and k_gravity*gravity >= 0 the call flags nothing or, in the direction asked for, fewer than n/(1+k_sigma^2) of the n samples. Hence with k_sigma^2 >= n-1 nothing is flagged, however large a spike is.", "quantifier": "every finite series, frequency and threshold", "why_tests_cant": "An upper bound over all series; it shows that no spike height can be found on short series.", "anchors": ["proadv/filtration/detection/acceleration.py:acceleration_thresholding"]}
{"id": "C135", "title": "velocity_correlation ignores the order of the samples", "statement": "Reordering the samples in the same way in all three components reorders the flags: both calls raise the same exception, or every sample is flagged in one series iff it is flagged in the other. Equal samples get equal flags, and time reversal mirrors the result.", "quantifier": "every finite series of triples, every permutation", "why_tests_cant": "All permutations of all series.", "anchors": ["proadv/filtration/detection/correlation.py:velocity_correlation", "proadv/filtration/detection/correlation.py:calculate_parameters"]}
{"id": "C136", "title": "phasespace_thresholding depends on the unit of velocity", "statement": "When every derivative rounds to 0 nothing is flagged, whatever the samples are: in particular when samples two apart differ by less than 0.0001 (float data) or by at most 1 (integer data), so also on series that alternate between two levels. Every series has a positive scale below which multiplying all samples by a factor leaves no flags; some series has flags in one unit and none in another.", "quantifier": "every non-empty finite series", "why_tests_cant": "Holds for every series and every small factor.", "anchors": ["proadv/filtration/detection/phasespace.py:phasespace_thresholding", "proadv/filtration/detection/phasespace.py:calculate_derivatives", "proadv/filtration/detection/phasespace.py:calculate_parameters"]}
{"id": "C137", "title": "phasespace_thresholding is scale-invariant when the rounding is exact", "statement": "If all samples, before and after multiplication by c > 0, are multiples of 0.0004, the same samples are flagged.", "quantifier": "every such series, every c > 0, degenerate ellipses included", "why_tests_cant": "All series and factors.", "anchors": ["proadv/filtration/detection/phasespace.py:phasespace_thresholding", "proadv/filtration/detection/phasespace.py:calculate_derivatives", "proadv/filtration/detection/phasespace.py:calculate_parameters"]}
{"id": "C138", "title": "kalman_filter with arrays of any shape", "statement": "On non-empty data the call raises unless the state has one row and the covariance and both noises are 1x1 (ValueError for state, covariance and process noise; ValueError or LinAlgError for the measurement noise). With a 1xc state and measurements that are scalars or rows of length c, every column is an independent scalar filter, and the call raises LinAlgError iff the scalar filter does. On empty data nothing is checked.", "quantifier": "all shapes, all entries including NaN and infinities, data of every length", "why_tests_cant": "All shapes and all series.", "anchors": ["proadv/statistics/series.py:kalman_filter"]}
{"id": "C139", "title": "moving_average under rounding: error bound, and a spike that never leaves", "statement": "With relative rounding error u per operation, output i of moving_average differs from the trailing window mean by at most ((1+u)^(i+2) - 1) M (1 + 2(1+u)(2+u)/w), M the largest absolute sample of the whole series. Dependence on samples outside the window is real: in binary64 a sample of 1e17 followed by ones gives, with window 2, zeros for ever.", "quantifier": "every rounding with unit roundoff u, every series, window and length", "why_tests_cant": "Error bounds quantify over all inputs and all roundings.", "anchors": ["proadv/statistics/series.py:moving_average"]}
{"id": "C140", "title": "weighted_moving_average under rounding: error depends on its own window only", "statement": "With relative rounding error u per operation, each output is within ((1+u)^(p+2) - 1) M of the linearly weighted mean, M bounding the p samples of that window only.", "quantifier": "every rounding with unit roundoff u that keeps the integer weights exact, every series and period", "why_tests_cant": "Error bounds quantify over all inputs and all roundings.", "anchors": ["proadv/statistics/series.py:weighted_moving_average"]}
{"id": "C141", "title": "exponential_moving_average under rounding: error does not accumulate", "statement": "On float data with |x| <= M, output i is within ((1+u)^(3i) - 1) M of the closed form, and, when (1-alpha)(1+u)^3 < 1, within ((1+u)^3 - 1) M / (1 - (1-alpha)(1+u)^3) whatever the length. The error does not vanish: in binary64 with alpha = 0.1 the average of a recording that is constantly 0.3 is the next larger number from the second sample on, for ever.", "quantifier": "every rounding with unit roundoff u, 0 < alpha <= 1, every series", "why_tests_cant": "Error bounds quantify over all inputs, lengths and roundings.", "anchors": ["proadv/statistics/series.py:exponential_moving_average"]}
{"id": "C142", "title": "mean and variance under rounding", "statement": "The computed mean of n numbers is within (1+u)^(n+1) - 1 times the mean absolute value of the true mean (relative error for non-negative data). The computed variance is off by at most (1+u)^(n+4) - 1 relatively, plus (1+u)^(n+4) times the square of that mean error. In binary64 a constant series can have a positive variance.", "quantifier": "every rounding with unit roundoff u, every non-empty series", "why_tests_cant": "Error bounds quantify over all inputs and all roundings.", "anchors": ["proadv/statistics/descriptive.py:mean", "proadv/statistics/spread.py:variance"]}
{"id": "C143", "title": "examples/filtration loops: rounds, exit condition, frame, clean data", "statement": "Each despiking program (phase-space, spherical, acceleration, correlation) makes at most its fixed number of replacement rounds, and fewer exactly when a round found nothing. Then the detector finds nothing in the returned data and the program returns them unchanged (acceleration: for the direction tested in that round). Lengths are kept; samples outside the union of the detected positions are only rounded to 3 decimals (untouched with mean_value). Data without detections come back bit for bit.", "quantifier": "every arithmetic, every data set of three components (frame: of equal length)", "why_tests_cant": "The number of rounds and the detections depend on the data; no sample of data sets covers all loop histories.", "anchors": ["examples/filtration/phase-space.py:main", "examples/filtration/phase-space-3d.py:main", "examples/filtration/acceleration.py:main", "examples/filtration/correlation.py:main"]}
{"id": "C144", "title": "phase-space, spherical and acceleration programs never fail on finite data", "statement": "On three finite components of equal length n >= 1 (n >= 2 for the spherical program) the programs finish without exception; the result is finite, of the same length, and after at least one round every value is a multiple of 0.001 inside the rounded bounds of its input component. Spherical raises ValueError for n = 1, all raise TypeError on empty components.", "quantifier": "all finite real data of equal length", "why_tests_cant": "Absence of exceptions over all inputs cannot be sampled.", "anchors": ["examples/filtration/phase-space.py:main", "examples/filtration/phase-space-3d.py:main", "examples/filtration/acceleration.py:main"]}
{"id": "C145", "title": "acceleration program: one direction per round, stops before the other is tried", "statement": "Data without downward events are returned untouched after the first round, whatever upward spikes they contain; in particular an upward spike of any height above 14.7 cm/s at 100 Hz on a constant record is flagged by the upward test and never replaced, while its mirror image is removed in one round. The loop can also end while the downward test still flags a sample of the returned data.", "quantifier": "all lengths >= 3, positions, levels and heights above 14.7", "why_tests_cant": "The claim covers every height and position; it shows a flaw of the loop rather than a coincidence of one data set.", "anchors": ["examples/filtration/acceleration.py:main", "proadv/filtration/detection/acceleration.py:acceleration_thresholding"]}
{"id": "C146", "title": "correlation program: range and errors", "statement": "On three finite components of equal length the program either raises ValueError or returns finite components of the same length whose values never leave any interval containing the input component. A constant component (n >= 3), or any pair with a degenerate ellipse, raises ValueError in the first round.", "quantifier": "all finite real data of equal length", "why_tests_cant": "Up to ten data-dependent rounds; invariants over all of them need induction.", "anchors": ["examples/filtration/correlation.py:main", "proadv/filtration/detection/correlation.py:velocity_correlation"]}
{"id": "C147", "title": "kernel programs: IndexError on clean data, frame", "statement": "The bivariate and trivariate kernel programs make one pass and raise IndexError when nothing is detected. Otherwise at least one sample was detected, lengths are kept, and samples outside the detected positions are only rounded (4 and 3 decimals).", "quantifier": "every arithmetic, every density estimate, every data set", "why_tests_cant": "The density estimate is arbitrary; the claim holds for all of them.", "anchors": ["examples/filtration/bivariate-kernel.py:main", "examples/filtration/trivariate-kernel.py:main"]}
{"id": "C148", "title": "symmetries of the despiking programs", "statement": "The correlation program commutes with multiplying all components by one non-zero factor and shifting each by its own offset, errors included. The phase-space and spherical programs commute with a change of sign and with shifts by multiples of 0.002 (even steps of the rounding grid), the acceleration program with those shifts.", "quantifier": "all finite real data of equal length, all such factors and shifts", "why_tests_cant": "A relation between two whole runs, over all inputs and transformations.", "anchors": ["examples/filtration/correlation.py:main", "examples/filtration/phase-space.py:main", "examples/filtration/phase-space-3d.py:main", "examples/filtration/acceleration.py:main"]}
{"id": "C149", "title": "bivariate program: the two-branch test is an ellipse test", "statement": "Given a density estimate with a positive peak, the detection of the bivariate kernel program succeeds with cutoffs at the grid positions found along the column and row of the peak with the constant 0.4, and for cutoffs of positive width it marks exactly the samples whose rotated position is outside the ellipse of the cutoffs. For cutoffs of positive width the range test followed by the +-sqrt test marks exactly the points strictly outside the ellipse of the cutoffs, as the library's rho > 1 does. With an empty first interval both mark the samples off its line; with an empty second interval the program marks samples outside the first interval or off the line, the library only those off the line. If the density estimate contains a NaN, the detection raises IndexError.", "quantifier": "all finite records, all 256 x 256 density estimates with a positive peak, all finite cutoffs and points, exact arithmetic", "why_tests_cant": "Equality of two formulas over a continuum, with NaN in the degenerate cases.", "anchors": ["examples/filtration/bivariate-kernel.py:main", "proadv/filtration/detection/trivariatekernel.py:kernel"]}
{"id": "C150", "title": "singular spectrum filtering does not add energy", "statement": "Before the final rounding to 4 decimals, the filtered signal has weighted energy at most that of the input, where a sample is weighted by the number of windows that contain it. Hence every filtered sample is at most sqrt(L) times the largest input magnitude (L = window length).", "quantifier": "all real signals, all windows 2 <= L <= n, every orthonormal eigenvector matrix returned by the eigen-solver", "why_tests_cant": "An inequality over all signals and all admissible eigenbases.", "anchors": ["proadv/statistics/series.py:ssa", "proadv/statistics/series.py:_diagonal_average"]}
{"id": "C151", "title": "singular spectrum filtering does not depend on eigenvector signs or order", "statement": "Replacing the eigenvector matrix by one with columns permuted and multiplied by +1 or -1 leaves the result of ssa unchanged, so the unspecified sign convention and ordering of the solver do not matter.", "quantifier": "all real signals, all column permutations, all sign choices", "why_tests_cant": "Solvers fix one sign and order; tests see only that one.", "anchors": ["proadv/statistics/series.py:ssa", "proadv/statistics/series.py:_mobility"]}
{"id": "C152", "title": "window length 20000 erases the signal", "statement": "When fs/f = L with 20000 <= L <= 10^8 the mobility norm 1/L rounds to 0 at 4 decimals, no eigenvector is kept, and ssa returns zeros for every input. For 3 <= L < 20000 a constant signal is returned unchanged up to the 4-decimal rounding.", "quantifier": "all real signals, all such window lengths, all orthonormal eigenvector matrices", "why_tests_cant": "Needs a 20000 x 20000 eigenproblem to observe.", "anchors": ["proadv/statistics/series.py:ssa", "proadv/statistics/series.py:_mobility"]}
{"id": "C153", "title": "ssa replacement takes spike values from the filtered signal", "statement": "Each listed sample is overwritten by the ssa-filtered value (truncated for integer arrays), every other sample is kept; an index past the end raises IndexError and an error of ssa is passed on.", "quantifier": "all arrays, all lists of non-negative indices, every number type", "why_tests_cant": "Frame condition for all positions.", "anchors": ["proadv/filtration/replacement/replacements.py:ssa"]}
{"id": "C154", "title": "brentq converges within an explicit number of iterations", "statement": "On a bracket with values of opposite sign and width below 2^n * xtol / 2, brentq reports convergence after at most (n+1)^2 - 3 iterations (one if n <= 1) whenever maxiter allows them. With the default tolerances and maxiter = 500 every bracket of width at most 0.0155 converges, and for a continuous function the reported point is within xtol + rtol*|x| of a zero in the bracket.", "quantifier": "all functions (continuous or not), brackets, tolerances xtol > 0, rtol >= 0 and all n; exact arithmetic", "why_tests_cant": "A worst-case iteration bound over all functions.", "anchors": ["proadv/statistics/optimize/optimize.py:brentq"]}
{"id": "C155", "title": "fminbound stops by its own criterion within 3(upper-lower)/tolerance evaluations", "statement": "Every pass shortens the bracket by at least tolerance/3, so with max_evaluations >= 3*(upper-lower)/tolerance the flag is never 1, whatever the target returns (NaN and infinities included).", "quantifier": "all targets, bounds lower <= upper, tolerances > 0; exact arithmetic", "why_tests_cant": "A worst-case bound over all target functions.", "anchors": ["proadv/statistics/optimize/optimize.py:fminbound", "proadv/statistics/optimize/optimize.py:_optimize_within_bounds"]}
{"id": "C156", "title": "fminbound finds the minimum of a unimodal target", "statement": "If the target falls strictly up to z and rises strictly after it, then with such a budget the call ends with flag 0, the reported value is the value at a point within 2*(1.5e-8*|x| + tolerance/3) of z, and the returned point is within twice that distance of z.", "quantifier": "all strictly unimodal real targets, all bounds and tolerances > 0; exact arithmetic", "why_tests_cant": "Quantifies over all unimodal functions.", "anchors": ["proadv/statistics/optimize/optimize.py:fminbound", "proadv/statistics/optimize/optimize.py:_optimize_within_bounds"]}
{"id": "C157", "title": "mean and median are the least-squares and least-absolute-deviation centres", "statement": "mean returns the unique minimiser of sum (x-t)^2, median returns a minimiser of sum |x-t|, and the two differ by at most one std.", "quantifier": "all non-empty finite series; exact arithmetic", "why_tests_cant": "An optimality statement over all centres t and all data.", "anchors": ["proadv/statistics/descriptive.py:mean", "proadv/statistics/descriptive.py:median", "proadv/statistics/spread.py:std"]}
{"id": "C158", "title": "universal bounds on standardised samples", "statement": "No sample is further than sqrt(n-1)*std from the mean; |skewness| <= (n-2)/sqrt(n-1) and kurtosis <= n-1 for every non-constant series; the first two bounds are attained at every length.", "quantifier": "all finite non-constant real series of every length n", "why_tests_cant": "Extremal values over all data sets; random tests stay far from them.", "anchors": ["proadv/statistics/moment.py:skewness", "proadv/statistics/moment.py:kurtosis", "proadv/statistics/spread.py:std"]}
{"id": "C159", "title": "pooled mean and variance of joined series", "statement": "mean(x++y) is the length-weighted mean of the means; variance(x++y) is the weighted mean of the variances plus n*m*(mean x - mean y)^2/(n+m)^2.", "quantifier": "all pairs of non-empty finite series; exact arithmetic", "why_tests_cant": "An identity over all pairs of series of any lengths.", "anchors": ["proadv/statistics/descriptive.py:mean", "proadv/statistics/spread.py:variance"]}
{"id": "C160", "title": "moving averages are linear", "statement": "moving_average, exponential_moving_average (float arrays) and weighted_moving_average map a*x+b*y to a times the result for x plus b times the result for y; on integer arrays the exponential average is not linear.", "quantifier": "all pairs of series of equal length, all coefficients, windows and smoothing factors; exact arithmetic", "why_tests_cant": "An algebraic law over all pairs of series.", "anchors": ["proadv/statistics/series.py:moving_average", "proadv/statistics/series.py:exponential_moving_average", "proadv/statistics/series.py:weighted_moving_average"]}
{"id": "C161", "title": "moving averages are causal", "statement": "Appending samples does not change the averages already computed, bit for bit: the result for a prefix is a prefix of the result. Two recordings of equal length that agree on their first m samples have the same first m moving averages, also for m less than the window; entry k of weighted_moving_average depends on samples k to k+period-1 only.", "quantifier": "all series, all appended samples, every arithmetic (rounding, NaN, infinities)", "why_tests_cant": "Quantifies over all continuations and all float arithmetics.", "anchors": ["proadv/statistics/series.py:moving_average", "proadv/statistics/series.py:exponential_moving_average", "proadv/statistics/series.py:weighted_moving_average"]}
{"id": "C162", "title": "lag of the moving averages on a trend", "statement": "On the line a+b*i the moving average equals the line delayed by (min(i+1,w)-1)/2 samples, the exponential average the line delayed by (1-alpha)/alpha*(1-(1-alpha)^i), and entry k of the weighted average the line at k+2(p-1)/3.", "quantifier": "all lines, lengths, windows and smoothing factors; exact arithmetic", "why_tests_cant": "Closed forms for every index, length and parameter.", "anchors": ["proadv/statistics/series.py:moving_average", "proadv/statistics/series.py:exponential_moving_average", "proadv/statistics/series.py:weighted_moving_average"]}
{"id": "C163", "title": "fminbound does not depend on units", "statement": "Rescaling the variable (bounds and tolerance included) by c > 0 and replacing the target by k*f+d, k > 0, changes the report of fminbound in exactly that way: same flag, same number of evaluations, corresponding evaluation points.", "quantifier": "all targets including NaN and infinite values, all bounds, tolerances and budgets; exact arithmetic", "why_tests_cant": "A relation between whole runs for every target function.", "anchors": ["proadv/statistics/optimize/optimize.py:fminbound", "proadv/statistics/optimize/optimize.py:_optimize_within_bounds"]}
{"id": "C164", "title": "brentq does not depend on units", "statement": "Rescaling the variable (bracket and xtol included) by c > 0 and the function by any k != 0 (sign changes included) rescales the report and the evaluation points of brentq; mirroring x -> -x mirrors the report when the two end values differ in magnitude, and need not otherwise.", "quantifier": "all functions, brackets, tolerances and iteration limits; exact arithmetic", "why_tests_cant": "A relation between whole runs for every function.", "anchors": ["proadv/statistics/optimize/optimize.py:brentq"]}
{"id": "C165", "title": "Reynolds stresses transform as a tensor", "statement": "Measured in any other frame with axes A, the six stresses are the entries of A R A^T; for orthogonal A the turbulent kinetic energy, tr R^2 and det R are unchanged; det R is never negative.", "quantifier": "all series of equal non-zero length and every 3x3 matrix A; exact arithmetic", "why_tests_cant": "Quantifies over all rotations and all data; tests use one frame.", "anchors": ["proadv/statistics/signal/fluid.py:reynolds_stresses", "proadv/statistics/signal/fluid.py:kinetic_turbulent_energy"]}
{"id": "C166", "title": "complementary Butterworth filters share the power", "statement": "With the same order and critical frequencies, |H_lowpass|^2 + |H_highpass|^2 = 1 and |H_bandpass|^2 + |H_bandstop|^2 = 1 at every frequency, analog and digital.", "quantifier": "every order >= 1, all accepted critical frequencies, every frequency below Nyquist", "why_tests_cant": "An identity over all frequencies and orders.", "anchors": ["proadv/statistics/signal/butter.py:butterworth"]}
{"id": "C167", "title": "the half-power band of butterworth is exactly the band asked for", "statement": "No filter amplifies any frequency; the squared gain is at least 1/2 exactly inside the requested band (in the caller's frequency units, with and without sampling rate) and above 1/2 exactly off its edges; low-pass gain strictly decreases and high-pass gain strictly increases with frequency.", "quantifier": "every accepted call of order >= 1, all four types, analog and digital, every frequency below Nyquist", "why_tests_cant": "An equivalence over a continuum of frequencies and all designs.", "anchors": ["proadv/statistics/signal/butter.py:butterworth"]}
{"id": "C168", "title": "effect of the order of butterworth", "statement": "Raising the order never lowers the gain inside the band and never raises it outside; as the order grows the gain tends to 1 inside, 0 outside and stays 1/2 on the edges; the analog low-pass gain lies between (w/x)^(2n)/2 and (w/x)^(2n) beyond the cut-off.", "quantifier": "all pairs of orders, all accepted designs, every frequency below Nyquist", "why_tests_cant": "A limit over infinitely many designs.", "anchors": ["proadv/statistics/signal/butter.py:butterworth"]}
{"id": "C169", "title": "pdf is the derivative of cdf; limits and tail bounds", "statement": "The derivative of x -> cdf((x-mean)/std) is pdf(x, std, mean); cdf tends to 0 and 1; for x > 0, x*pdf/(1+x^2) < sf < pdf/x and sf <= exp(-x^2/2)/2.", "quantifier": "every real x, every std > 0 and mean; exact arithmetic", "why_tests_cant": "Derivatives, limits and inequalities over all reals.", "anchors": ["proadv/statistics/distributions/normal.py:cdf", "proadv/statistics/distributions/normal.py:pdf", "proadv/statistics/distributions/normal.py:sf"]}
{"id": "C170", "title": "linear_interpolation: spike values and repetition", "statement": "When the last sample is not a spike, the recorded spike values do not influence the result, a third pass returns what the second returned, and without rounding one pass is final; when the last sample is a spike its value leaks into the result; a second pass can change the result.", "quantifier": "all finite float series, all sorted non-empty spike lists, every number of decimals", "why_tests_cant": "Compares runs on different data over all inputs.", "anchors": ["proadv/filtration/replacement/replacements.py:linear_interpolation"]}
{"id": "C171", "title": "linear_interpolation: time reversal and change of units", "statement": "With both end samples valid the time-reversed series gives the time-reversed result (not so at the ends); before rounding interpolation commutes with every map a*x+b; with rounding it commutes with the sign flip and with offsets by even multiples of the rounding step.", "quantifier": "all finite float series, all sorted non-empty spike lists, every number of decimals, all a and b", "why_tests_cant": "Symmetries over all inputs.", "anchors": ["proadv/filtration/replacement/replacements.py:linear_interpolation"]}
{"id": "C172", "title": "statistics of skewtest and kurtotest", "statement": "The statistic skewtest computes is D'Agostino's transformed skewness: finite, odd and strictly increasing in a non-zero skewness and of its sign, but positive (not zero) for perfectly symmetric data; with 7 samples it would be NaN, so the limit of 8 is sharp. The statistic kurtotest computes is Anscombe and Glynn's, strictly increasing in the kurtosis, while the base of the cube root is positive, and masked (0) otherwise, which happens for the least possible kurtosis 1 with 100 samples.", "quantifier": "every sample size >= 8 (>= 5 for kurtotest) and every real skewness or kurtosis; exact arithmetic", "why_tests_cant": "The statistic is never returned (both tests raise, C35), so no test can observe it; the laws range over all sizes and values.", "anchors": ["proadv/statistics/distributions/normal.py:skewtest", "proadv/statistics/distributions/normal.py:kurtotest"]}
{"id": "C173", "title": "symmetries of the bivariate kernel density", "statement": "bivariate_kernel depends on its two samples as a set of points: permuting the points (both coordinates alike) or recording the whole sample twice changes nothing; an affine change of units of the two coordinates (positive factors a, c) moves the two axes along and divides the density by a*c, entries clipped to the smallest value 2^-52 staying clipped; only the squares of the two bandwidths matter. Exchanging the two coordinates does not in general transpose the density.", "quantifier": "all finite samples with two distinct values in each coordinate, all units, bandwidths and even grid sizes; exact arithmetic; root and minimum search as parameters with their documented guarantees", "why_tests_cant": "Invariance over all permutations, units and samples; sampled tests see a few.", "anchors": ["proadv/kernel/bivariate.py:bivariate_kernel", "proadv/kernel/bivariate.py:_psi", "proadv/kernel/bivariate.py:_evolve"]}
{"id": "C174", "title": "the bivariate density does not become uniform for large bandwidths", "statement": "As the bandwidth grows, the density of bivariate_kernel converges to a limit that is constant along one axis and proportional to 1, 2cos(pi i/2g) along the other: it is not the uniform density of the box (the first row stays below the second on every even grid).", "quantifier": "every even grid size, every finite sample with two distinct values in each coordinate, limit over all bandwidths", "why_tests_cant": "A limit statement over all bandwidths.", "anchors": ["proadv/kernel/bivariate.py:bivariate_kernel"]}
{"id": "C175", "title": "the averaging and singular-spectrum example programs", "statement": "The simple-moving-average program draws a trend a+bi 14.5 samples late (from the 30th sample on), the exponential program 11.5(1-0.92^i) samples late, the weighted program 58/3 samples early and with 30 points fewer than the column; every drawn value lies in the range of the column; columns shorter than 30 stop the first (unless empty) and third with ValueError, an empty column stops the exponential one with IndexError; the singular-spectrum program needs 100 samples and then draws one 4-decimal value per sample.", "quantifier": "all columns of all lengths; all trends; exact arithmetic (numpy's eigh and ceil as parameters)", "why_tests_cant": "Quantifies over all columns and all lengths.", "anchors": ["examples/signal/simple-moving-average.py:main", "examples/signal/exponential-moving-average.py:main", "examples/signal/weighted-moving-average.py:main", "examples/signal/singular-spectrum.py:main"]}
{"id": "C176", "title": "the Kalman example program forgets its built-in start", "statement": "With the built-in start (estimate 1, covariance 1) and noises 0.01 and 15, the program returns one estimate per measurement; if all measurements lie in [lo, hi], estimate i is at most 0.975^(i+1) times the initial distance away from [lo, hi], so after 1000 equal measurements the estimate agrees with them to 10^-10 of the initial distance.", "quantifier": "all measurement sequences of all lengths; exact arithmetic", "why_tests_cant": "Rate of convergence for all sequences.", "anchors": ["examples/signal/kalman.py:main"]}
{"id": "C177", "title": "the -5/3 reference line of the spectrum program", "statement": "With fewer than 2048 samples the program stops with ValueError; otherwise its abscissae are the 1025 frequencies k*100/2048 and the reference line runs from 1 Hz to 50 Hz with y2 = y1*50^(-5/3) and y1*y2 = smallest density * largest density; if some density is zero (always for constant data) both ends of the line are zero, so logarithmic axes show no line.", "quantifier": "all columns of all lengths; exact real arithmetic", "why_tests_cant": "All columns; exact exponents.", "anchors": ["examples/signal/spectrum.py:main"]}
{"id": "C178", "title": "polluted samples can be told from clean ones by range", "statement": "If percent times the mean of the data exceeds the spread of the data, the samples polluted by synthetic_noise are exactly those outside the range of the clean data; in the example program (500 integers in 0..49, 10 percent) exactly 50 samples are polluted and they are exactly those outside [0, 49] whenever the mean exceeds 4.9.", "quantifier": "all data, all index draws, all noise vectors", "why_tests_cant": "All random draws at once.", "anchors": ["examples/signal/synthetic.py:main", "proadv/statistics/signal/synthetic.py:synthetic_noise"]}
{"id": "C179", "title": "breakdown of mean and median and of the replacements built on them", "statement": "As long as fewer than half of the samples lie outside [lo, hi] the median lies in [lo, hi], and with exactly half of them outside it can be anything; one sample can put the mean anywhere. Hence median_value, called with all wild samples listed and fewer than half of the samples listed, returns a series inside [lo, hi] whatever the wild values are, while one correctly listed spike can put the replacement chosen by mean_value anywhere. last_valid_data never depends on the values of the listed samples unless sample 0 is listed.", "quantifier": "all finite series, all intervals, all sets of outliers and all outlier values (exact arithmetic); last_valid_data for every float arithmetic", "why_tests_cant": "Worst case over all outlier values and positions; a test tries a few.", "anchors": ["proadv/statistics/descriptive.py:median", "proadv/statistics/descriptive.py:mean", "proadv/filtration/replacement/replacements.py:median_value", "proadv/filtration/replacement/replacements.py:mean_value", "proadv/filtration/replacement/replacements.py:last_valid_data"]}
{"id": "C180", "title": "the moving averages keep trends and bound jumps", "statement": "A nondecreasing series has a nondecreasing moving_average (also across the growing start), exponential_moving_average (float arrays) and weighted_moving_average; for data in [lo, hi] one step of the output is at most (hi-lo)/min(i+2, window), alpha (hi-lo) and 2(hi-lo)/(period+1) respectively.", "quantifier": "all finite series of all lengths, all admissible windows, alphas and periods; exact arithmetic", "why_tests_cant": "For all monotone series and all windows; the sharp step bounds are not visible on samples.", "anchors": ["proadv/statistics/series.py:moving_average", "proadv/statistics/series.py:exponential_moving_average", "proadv/statistics/series.py:weighted_moving_average"]}
{"id": "C181", "title": "the moving averages do not amplify errors", "statement": "If two series of the same length differ by at most d at every sample, their moving averages (plain, exponential on float arrays, weighted) differ by at most d at every output.", "quantifier": "all pairs of finite series of equal length, all d, windows, alphas and periods; exact arithmetic", "why_tests_cant": "A universal sensitivity bound over pairs of inputs.", "anchors": ["proadv/statistics/series.py:moving_average", "proadv/statistics/series.py:exponential_moving_average", "proadv/statistics/series.py:weighted_moving_average"]}
{"id": "C182", "title": "A missing sample (NaN) and the smoothing filters", "statement": "For a recording whose samples are numbers or NaN: an output of exponential_moving_average is NaN exactly when the same or an earlier sample is NaN; an output of weighted_moving_average is NaN exactly when its own window contains a NaN; an estimate of kalman_filter (finite parameters, non-negative covariances, positive measurement noise) is NaN exactly when the same or an earlier measurement is NaN.", "quantifier": "all recordings with any number of missing samples at any positions, all smoothing factors in (0,1], all periods, all filter parameters of the stated signs", "why_tests_cant": "The position and number of missing samples is unbounded; a test shows one contaminated tail, not that finite outputs appear exactly before the first gap.", "anchors": ["proadv/statistics/series.py:exponential_moving_average", "proadv/statistics/series.py:weighted_moving_average", "proadv/statistics/series.py:kalman_filter"]}
{"id": "C183", "title": "A missing sample (NaN) and the statistics", "statement": "mean, variance, std, skewness and kurtosis of data with a NaN return NaN without raising and without skipping it. In reynolds_stresses each stress is NaN exactly when one of its two components has a NaN, and the energy of kinetic_turbulent_energy exactly when any component has one.", "quantifier": "all data lists containing NaN (including infinities for the single-series statistics); all triples of equally long recordings", "why_tests_cant": "The equivalences (exactly which of the six stresses is lost) range over all patterns of missing samples.", "anchors": ["proadv/statistics/descriptive.py:mean", "proadv/statistics/spread.py:variance", "proadv/statistics/spread.py:std", "proadv/statistics/moment.py:skewness", "proadv/statistics/moment.py:kurtosis", "proadv/statistics/signal/fluid.py:reynolds_stresses", "proadv/statistics/signal/fluid.py:kinetic_turbulent_energy"]}
{"id": "C184", "title": "Five replacements cannot fill missing samples", "statement": "When every listed sample is NaN, mean_value, median_value, simple_moving_average, exponential_moving_average and weighted_moving_average return the array unchanged: the value written is itself NaN.", "quantifier": "all arrays, all non-empty index lists pointing at NaN samples, all window lengths, smoothing factors and periods that the functions accept", "why_tests_cant": "A user who marks gaps as NaN gets them back for every array, not only for a sample array.", "anchors": ["proadv/filtration/replacement/replacements.py:mean_value", "proadv/filtration/replacement/replacements.py:median_value", "proadv/filtration/replacement/replacements.py:simple_moving_average", "proadv/filtration/replacement/replacements.py:exponential_moving_average", "proadv/filtration/replacement/replacements.py:weighted_moving_average"]}
{"id": "C185", "title": "Two replacements do fill missing samples", "statement": "If every NaN sample is listed, last_valid_data (first sample not listed) and linear_interpolation (some sample recorded) return arrays without NaN, and before rounding every value lies in every interval containing the recorded values.", "quantifier": "all recordings, all strictly increasing index lists covering the missing samples (they may also list recorded samples)", "why_tests_cant": "Absence of NaN and the range bound are claims over all patterns of gaps, including gaps at the ends.", "anchors": ["proadv/filtration/replacement/replacements.py:last_valid_data", "proadv/filtration/replacement/replacements.py:linear_interpolation"]}
{"id": "C186", "title": "A missing sample (NaN) silences the detectors", "statement": "With one NaN in the series acceleration_thresholding (tag 1 or 2) and phasespace_thresholding flag nothing at all, whatever the other samples are; velocity_correlation with a NaN in any component raises ValueError.", "quantifier": "all series containing NaN (other entries arbitrary, infinities included), all thresholds; all triples of equally long series of at least 3 samples", "why_tests_cant": "That no spike, however large, is found once a sample is missing is a claim over all series.", "anchors": ["proadv/filtration/detection/acceleration.py:acceleration_thresholding", "proadv/filtration/detection/phasespace.py:phasespace_thresholding", "proadv/filtration/detection/correlation.py:velocity_correlation"]}
{"id": "C187", "title": "The value written by polynomial_replacement", "statement": "With a least-squares regression of degree d on more than d samples the prediction for the index after them is determined, obeys superposition and depends only on the position relative to the window. For d = 0, 1, 2 (2 is the default) it is an explicit weighted sum of the samples before the index (weights depend only on d and the number of samples and sum to 1). polynomial_replacement with spikes from index 11 on keeps all other samples and writes, in order, that weighted sum of the already repaired samples into each spike; then everything is rounded.", "quantifier": "all finite arrays, all strictly increasing spike lists (not of length 1) from index 11 on, all windows longer than the degree; uniqueness, superposition and translation for every degree", "why_tests_cant": "A regression tested on sample data shows one fitted value, not the weights nor the recursion through already repaired samples.", "anchors": ["proadv/filtration/replacement/replacements.py:polynomial_replacement", "proadv/filtration/replacement/replacements.py:_create_model"]}
{"id": "C188", "title": "Noise gain of the regression forecast", "statement": "The squared weights of the forecast from m samples sum to 1/m, 2(2m+1)/(m(m-1)) and 3(3m²+3m+2)/(m(m-1)(m-2)) for degree 0, 1 and 2. A disturbance e of the samples changes the forecast by at most the square root of this gain times the sum of e², and the disturbance equal to the weights attains the bound.", "quantifier": "all window lengths larger than the degree, all disturbances", "why_tests_cant": "The exact worst case over all disturbances cannot be found by sampling.", "anchors": ["proadv/filtration/replacement/replacements.py:_create_model", "proadv/filtration/replacement/replacements.py:polynomial_replacement"]}
{"id": "C189", "title": "Each Kalman estimate ends the best-fitting trajectory", "statement": "With positive covariances, among all starting points and state trajectories through the measurements so far, the sum of squared start error / p0, squared steps / q and squared misfits / r has a minimum; it is attained by a trajectory ending in the estimate kalman_filter returns for that time, and every trajectory ending elsewhere costs strictly more.", "quantifier": "all finite measurement lists, all x0, all positive p0, q, r, every time index", "why_tests_cant": "The claim compares one output with every possible trajectory; no finite set of tests can.", "anchors": ["proadv/statistics/series.py:kalman_filter"]}
{"id": "C190", "title": "The moving averages are weighted least-squares levels", "statement": "Each output of moving_average is the unique constant with the least sum of squared distances from its trailing window; exponential_moving_average the same with weights discounted by 1 - alpha per step back; weighted_moving_average with weights 1..period on the period samples before its time stamp.", "quantifier": "all finite inputs, all windows / alphas / periods the functions accept", "why_tests_cant": "Minimality is a statement about all constants; tests compare with a few.", "anchors": ["proadv/statistics/series.py:moving_average", "proadv/statistics/series.py:exponential_moving_average", "proadv/statistics/series.py:weighted_moving_average"]}
{"id": "C191", "title": "butterworth depends only on frequencies relative to the sampling rate", "statement": "Multiplying the critical frequencies and the sampling rate by the same nonzero number leaves the result, in each output form, or the exception unchanged; a digital design without sampling rate equals the one with rate 2.", "quantifier": "all orders, frequency lists, types, outputs, rates and factors, accepted or rejected", "why_tests_cant": "An equality over a continuum of units.", "anchors": ["proadv/statistics/signal/butter.py:butterworth"]}
{"id": "C192", "title": "Spectral inversion of digital Butterworth filters", "statement": "Reflecting the edges about half the Nyquist frequency and swapping low and high pass gives the transfer function H(-z), for all four types. For low/high pass the returned zeros and poles are negated in place and the gain is the same.", "quantifier": "all orders n > 0, all accepted edges, every complex z other than 1 and -1", "why_tests_cant": "The law relates two designs at every frequency.", "anchors": ["proadv/statistics/signal/butter.py:butterworth", "proadv/statistics/signal/butter.py:low_to_high", "proadv/statistics/signal/butter.py:low_to_low", "proadv/statistics/signal/butter.py:low_to_band", "proadv/statistics/signal/butter.py:low_to_stop", "proadv/statistics/signal/butter.py:bilinear"]}
{"id": "C193", "title": "Frequency scaling of analog Butterworth filters", "statement": "Multiplying all edges of an analog filter by c > 0 is accepted exactly when the original is and gives H'(c s) = H(s) for all four types, zeros of the response included.", "quantifier": "all orders n > 0, all accepted edges, all c > 0, every complex s", "why_tests_cant": "The law relates two designs at every complex frequency.", "anchors": ["proadv/statistics/signal/butter.py:butterworth", "proadv/statistics/signal/butter.py:low_to_high", "proadv/statistics/signal/butter.py:low_to_low", "proadv/statistics/signal/butter.py:low_to_band", "proadv/statistics/signal/butter.py:low_to_stop"]}
{"id": "C194", "title": "kalman_filter with scalar, 1-D and 2-D initial arguments", "statement": "2-D initial arguments give the matrix filter of C138. A 1-D initial state or covariance of a length other than 1 is a ValueError at the first measurement. One-element arguments of any mix of dimensions 0 to 2 raise LinAlgError exactly when the covariance is 1-D and both noises have at most one dimension (or the 1x1 filter does); otherwise the values are those of the 1x1 filter, returned as 1-D arrays for a 1-D initial state and as 2-D arrays otherwise. With a 1-D one-element state and covariance and a 2-D one-element measurement noise, rows of other than one component raise ValueError. A TypeError never occurs unless the matrix inverse raises one.", "quantifier": "all measurement lists, all values, all 81 combinations of dimensions, every float arithmetic for the reduction of 2-D arguments", "why_tests_cant": "Broadcasting decides the outcome; tests pass only the documented 2-D matrices.", "anchors": ["proadv/statistics/series.py:kalman_filter"]}
{"id": "C195", "title": "The kernel precision chosen by _type", "statement": "Boolean and non-numeric arrays, and only these, are a TypeError, and the order of the arguments does not matter. A double covariance with an integer, half, single or double grid selects the double kernel; the single kernel is selected only by two single (or one single, one half) arrays. The chosen type is complex exactly when an argument is and has the larger of the two precisions. Complex arrays are sized by both parts (complex64 selects double, complex128 long double), and half or long-double complex arrays leave a number in place of a kernel name.", "quantifier": "all pairs of element types and all sizes of long double", "why_tests_cant": "Tests use float64 arrays only, which reach one of the four outcomes.", "anchors": ["proadv/filtration/detection/trivariatekernel.py:_type"]}
{"id": "C196", "title": "velocity_correlation raises on a large spike in the second or third component", "statement": "A spike of height M added to sample i of v (or w) makes the call a ValueError as soon as |M| times the deviation of u from its mean at that sample reaches n times (var u + |cov(u,v)|); the same holds for w against v. So unless u is exactly at its mean there, every sufficiently high spike makes the call fail. A spike common to u and v makes it fail from an explicit height on when v deviates more in the direction of the spike than u.", "quantifier": "all component lists of equal length n >= 3, all sample positions, all heights", "why_tests_cant": "The failure needs a spike that is large relative to the rest of the recording; tests use small smooth series.", "anchors": ["proadv/filtration/detection/correlation.py:velocity_correlation", "proadv/filtration/detection/poincare.py:calculate_ab", "proadv/filtration/detection/poincare.py:calculate_rho"]}
{"id": "C197", "title": "velocity_correlation flags a large spike in the first component", "statement": "With at least four samples, if v and w are accepted as a pair and neither is constant apart from sample i, there is a height from which every spike (up or down) at sample i of u is accepted and flagged.", "quantifier": "all component lists of equal length n >= 4, all sample positions, all heights beyond the bound", "why_tests_cant": "Detection of every large spike at every position is a statement about all data.", "anchors": ["proadv/filtration/detection/correlation.py:velocity_correlation"]}
{"id": "C198", "title": "velocity_correlation can flag every sample of a recording without spikes", "statement": "For every multiple of four samples there are three components of mean zero and variance at least 1, all of whose values lie between -2.5 and 2.5, of which every single sample is flagged.", "quantifier": "all recording lengths 4k", "why_tests_cant": "It takes components whose correlation makes an ellipse axis almost vanish.", "anchors": ["proadv/filtration/detection/correlation.py:velocity_correlation"]}
{"id": "C199", "title": "How many samples velocity_correlation can flag", "statement": "The number of flagged samples times 2 ln n is at most n times the sum of the mean squared elliptical distances of the three pairs, which are explicit in the variances and regression slopes. For pairwise uncorrelated components at most 3n/ln n samples are flagged.", "quantifier": "all accepted component lists of equal length n >= 3", "why_tests_cant": "A counting bound over all data; tests count flags of single series.", "anchors": ["proadv/filtration/detection/correlation.py:velocity_correlation"]}
{"id": "C200", "title": "phasespace_thresholding flags a large spike together with its neighbours", "statement": "In any float series of at least four samples there is a height from which every spike (up or down) at sample i is flagged. With at least nine samples the neighbouring samples are flagged as well, unless they are the first or last sample, although they are unchanged.", "quantifier": "all series, all positions, all heights beyond the bound", "why_tests_cant": "The bound covers all positions and base series, including rounding of the derivatives.", "anchors": ["proadv/filtration/detection/phasespace.py:phasespace_thresholding", "proadv/filtration/detection/phasespace.py:calculate_derivatives", "proadv/filtration/detection/phasespace.py:calculate_parameters"]}
{"id": "C201", "title": "acceleration_thresholding flags a large spike, except at the first sample", "statement": "For more than 1 + k_sigma^2 samples there is a height from which every upward spike at a sample other than the first is flagged with tag 1 and every downward one with tag 2. The first sample is never flagged. (With 1 + k_sigma^2 samples or fewer nothing is ever flagged, C134.)", "quantifier": "all series, positions, frequencies > 0, factors with k_gravity*gravity >= 0", "why_tests_cant": "The sharp length condition is not visible in single examples.", "anchors": ["proadv/filtration/detection/acceleration.py:acceleration_thresholding"]}
{"id": "C202", "title": "An infinite sample in the statistics and the smoothing filters", "statement": "mean of data with infinite samples of one sign is that infinity, with both signs NaN; variance, std, skewness and kurtosis are NaN as soon as one sample is infinite or NaN; median stays a number while fewer than half the samples are +inf and fewer than half -inf. With one infinite sample: exponential_moving_average returns that infinity from there on for ever (alpha = 1: NaN from the next sample on, although alpha = 1 is meant to copy the data); kalman_filter returns the infinity once and NaN for ever; moving_average returns the infinity for the w outputs whose window holds the sample and NaN for ever after it has left the window; weighted_moving_average is infinite exactly for the windows that hold it. Outputs before the sample are unaffected (by C161 for the two window averages).", "quantifier": "For all arrays of any length with any infinite and finite samples, all windows, all smoothing factors in (0,1], all non-negative covariances with a positive measurement noise and p0 + q > 0.", "why_tests_cant": "An overflowed reading needs hand-written inputs with infinities, and the permanent NaN after the window has passed shows up only in long records.", "anchors": ["proadv/statistics/descriptive.py:mean", "proadv/statistics/descriptive.py:median", "proadv/statistics/spread.py:variance", "proadv/statistics/spread.py:std", "proadv/statistics/moment.py:skewness", "proadv/statistics/moment.py:kurtosis", "proadv/statistics/series.py:moving_average", "proadv/statistics/series.py:exponential_moving_average", "proadv/statistics/series.py:weighted_moving_average", "proadv/statistics/series.py:kalman_filter"]}
{"id": "C203", "title": "An infinite sample in the detectors and in mean_value and median_value", "statement": "With one infinite (or NaN) sample acceleration_thresholding (tag 1 or 2) and phasespace_thresholding flag nothing at all and velocity_correlation raises ValueError. mean_value with infinite samples of one sign writes that infinity to every listed sample, ordinary spikes included; median_value, if all infinite samples are listed and neither sign reaches half of the samples, returns only numbers.", "quantifier": "For all arrays with a non-finite sample (velocity_correlation: three components of one length n >= 3), all thresholds and sampling rates, all lists of spike indices in range.", "why_tests_cant": "The largest possible spike is the one no detector reports; tests use finite spikes.", "anchors": ["proadv/filtration/detection/acceleration.py:acceleration_thresholding", "proadv/filtration/detection/phasespace.py:phasespace_thresholding", "proadv/filtration/detection/correlation.py:velocity_correlation", "proadv/filtration/replacement/replacements.py:mean_value", "proadv/filtration/replacement/replacements.py:median_value"]}
{"id": "C204", "title": "The regression model _create_model", "statement": "_create_model(y, arange(lo, i), i, degree) raises ValueError exactly for a negative degree, an empty range, different numbers of abscissae and samples, or a NaN or infinite sample, and returns a finite number otherwise. The fit is well defined (one least-squares solution of least norm, also with fewer samples than coefficients), and the prediction is the value of a polynomial of at most the given degree with the least sum of squared residuals. For every degree it is a fixed weighted sum of the samples with weights of sum 1; one sample is returned as it is. With the default degree 2 on two samples a and b at lo, lo+1 the prediction is a + (b-a)(2+4(lo+1)(2lo+1))/(1+(2lo+1)^2): it depends on the position in the recording and never continues the straight line (lo >= 0, a != b).", "quantifier": "every degree, every number and position of samples, all sample values", "why_tests_cant": "A fit checked on an example shows one number; that it is optimal among all polynomials, linear in the samples and position-dependent when over-fitted are statements about all inputs.", "anchors": ["proadv/filtration/replacement/replacements.py:_create_model"]}
{"id": "C205", "title": "polynomial_replacement with its own regression", "statement": "With spikes from index 11 on (increasing, not a single one) and a positive window polynomial_replacement succeeds exactly when every unlisted sample in the regression window of every listed index is finite, and raises ValueError otherwise; on success each listed sample is finite and the others are kept, up to the final rounding. A window <= 0 or a negative degree raises ValueError when several spikes are listed and the first is at 11 or later. With window = 1 the result is last_valid_data followed by rounding, for every degree and order of the spikes. A constant signal is restored with every degree and every positive window.", "quantifier": "all float arrays with any pattern of NaN and infinite samples, all spike lists from index 11 on, all windows, degrees and roundings", "why_tests_cant": "Which combinations of missing samples, window and spikes raise cannot be enumerated.", "anchors": ["proadv/filtration/replacement/replacements.py:polynomial_replacement", "proadv/filtration/replacement/replacements.py:_create_model", "proadv/filtration/replacement/replacements.py:last_valid_data"]}
{"id": "C206", "title": "A settled Kalman filter is an exponential moving average", "statement": "For Q > 0, R > 0 let s >= 0 be the settled covariance (s^2 + Q s = Q R). kalman_filter started with covariance s returns exactly what exponential_moving_average with alpha = s/R = (s+Q)/(s+Q+R) (strictly between 0 and 1) returns on the initial estimate followed by the data, without its first element. Started with any covariance P0 >= 0 on data (and initial estimate) within an interval of width D, estimate i differs from the moving average by at most (R/(Q+R))^(i+1) * D |P0 - s| / Q. Conversely every exponential moving average with 0 < alpha < 1 is the Kalman filter with P0 = alpha R and Q = alpha^2 R/(1-alpha), for any R > 0.", "quantifier": "all finite data of every length, all noise variances, all initial states, all smoothing factors", "why_tests_cant": "The equality of two functions on all recordings, and a bound that holds at every index, are not decided by runs.", "anchors": ["proadv/statistics/series.py:kalman_filter", "proadv/statistics/series.py:exponential_moving_average"]}
{"id": "C207", "title": "The exact value of cubic_12points_polynomial", "statement": "The not-a-knot cubic spline of interp1d through the 24 nodes takes at 13 the weighted sum of its ordinates with fixed rational weights (splineWeight, of sum 1), so what the function writes is determined: for a spike more than 30 samples from both ends it is the weighted sum of the raw samples i-13, ..., i-2 and of the 12 nearest unlisted samples after i, rounded. On finite float data and strictly increasing in-range spikes the call succeeds exactly when every spike within 30 samples of an end has at least one unlisted sample after it and every other spike at least twelve; at most 18 spikes and an unlisted last sample are enough.", "quantifier": "all finite recordings, all strictly increasing spike lists, all roundings, every spline routine meeting its documentation", "why_tests_cant": "The value for every recording and the exact condition for raising cannot be read off from examples.", "anchors": ["proadv/filtration/replacement/replacements.py:cubic_12points_polynomial"]}
{"id": "C208", "title": "cubic_12points_polynomial overshoots and lets earlier spikes leak", "statement": "A spike 2 samples before an interior spike (all else 0) leaves 872783/1169983 of its height in the replacement of the later one, because the samples before a spike are used raw. If the 24 samples used lie in [lo, hi] the replacement lies within 786259/1169983 of the width hi-lo outside that interval, and this is attained: samples 0 and 1 give 1.6720. On a parabola alpha + beta j + gamma j^2 the replacement is alpha + beta (i-1/2) + gamma (i^2 - i + 2602053/2339966), not the value at i.", "quantifier": "all recordings with an interior spike, all heights, all parabolas", "why_tests_cant": "The extreme overshoot over all recordings needs a proof; a test sees single values.", "anchors": ["proadv/filtration/replacement/replacements.py:cubic_12points_polynomial"]}
{"id": "C209", "title": "When the result of ssa is determined by its input", "statement": "np.linalg.eigh promises some orthonormal eigenvectors of the lag-covariance matrix. For every signal and every window such a matrix exists. If no two of its columns share a non-zero eigenvalue, ssa returns the same values for every such matrix (columns for the eigenvalue 0 contribute nothing). With a repeated non-zero eigenvalue the result depends on the solver: for the signal [1, 0, 1] with fs = 1.5, f = 1 one admissible matrix gives [1, 0, 1], another [0.5, 0.5, 0.5].", "quantifier": "all finite real signals, all windows of at least two samples that fit, every pair of eigensolvers meeting the contract", "why_tests_cant": "A test uses one installed LAPACK; independence of the solver is a statement about all admissible solvers.", "anchors": ["proadv/statistics/series.py:ssa", "proadv/statistics/series.py:_mobility"]}
{"id": "C210", "title": "ssa erases the alternating signal", "statement": "For the signal a, -a, a, ... of any length and amplitude, sampled with fs = L f for a window of L = 5 to 10^8 samples, ssa returns all zeros, whichever orthonormal eigenvectors the solver chooses; a constant signal passes unchanged (C152).", "quantifier": "all lengths, all amplitudes, all windows from 5 to 10^8 samples, every eigensolver meeting the contract", "why_tests_cant": "Holds for all lengths, windows and solver choices; tests sample a few.", "anchors": ["proadv/statistics/series.py:ssa", "proadv/statistics/series.py:_mobility"]}
{"id": "C211", "title": "Response of moving_average to periodic signals and sinusoids", "statement": "On a series of period w, moving_average with window w returns, from the first full window on, constantly the mean over one period. On a sampled sinusoid A cos(omega i + phi) with window m the output from index m-1 on is the sinusoid delayed by (m-1)/2 samples and multiplied by sin(m omega/2)/(m sin(omega/2)) (zero exactly when m omega is a multiple of 2 pi).", "quantifier": "all periodic series, all amplitudes, phases, frequencies (not multiples of 2 pi), all windows and lengths", "why_tests_cant": "A frequency response is a statement about a continuum of signals of every length.", "anchors": ["proadv/statistics/series.py:moving_average"]}
{"id": "C212", "title": "Response of exponential_moving_average to sinusoids", "statement": "On A cos(omega i + phi) the output is a sinusoid of the same frequency with amplitude multiplied by alpha/sqrt(alpha^2 + 2(1-alpha)(1-cos omega)) and a phase shift depending only on alpha and omega, plus (1-alpha)^i times its discrepancy at the first sample. The factor lies in (0, 1], is 1 at omega = 0, decreases strictly up to omega = pi and is alpha/(2-alpha) there.", "quantifier": "all amplitudes, phases, frequencies, lengths and all 0 < alpha <= 1", "why_tests_cant": "A frequency response and its monotonicity over a continuum of frequencies.", "anchors": ["proadv/statistics/series.py:exponential_moving_average"]}
{"id": "C213", "title": "How many samples phasespace_thresholding can flag", "statement": "Let the three variances (of the series and its two central differences) be positive, m the least-squares slope through the origin of the second difference against the series, and P(s) = mean square / variance = 1 + mean^2/variance. When the third ellipse is real (m^2 var(d2) < var(x), m^2 var(x) < var(d2)), at most n/(2 ln n) (P(x) + 2 P(d1) + P(d2) + T) samples are flagged, with T an explicit function of m and the mean squares. When the third ellipse is not real it flags nothing and the bound holds without T. For a centred series with centred differences and m = 0 the number of flagged samples is at most 3 n / ln n.", "quantifier": "all float or integer series of length at least 2 with non-degenerate variances", "why_tests_cant": "A bound on the fraction of flagged samples for every series of every length; tests look at individual series.", "anchors": ["proadv/filtration/detection/phasespace.py:phasespace_thresholding"]}
{"id": "C214", "title": "brentq stays in its bracket in rounded arithmetic", "statement": "With every arithmetic operation of brentq rounded (monotone, idempotent, relative error at most u <= 1/32), positive xtol, rtol >= 0 and representable end points a, b: every point at which f is evaluated and the returned root lie in [a, b]; the only error is ValueError, raised exactly when b <= a or f(a), f(b) are non-zero and of the same sign (no ZeroDivisionError arises); and a run that reports convergence returns a zero of f or a point with a sign change of f within (1+u)^3/(1-u)^2 (xtol + rtol |root|). Without rounding this routine is the exact model of C36-C39. Binary64 without overflow and underflow is an instance.", "quantifier": "all functions f, all brackets, tolerances and iteration limits, all roundings meeting the contract", "why_tests_cant": "Rounding cases that push an iterate across the bracket would be hit by no test; the claim is about all functions and all roundings.", "anchors": ["proadv/statistics/optimize/optimize.py:brentq"]}
{"id": "C215", "title": "fminbound stays between its bounds in rounded arithmetic", "statement": "With every arithmetic operation rounded (monotone, symmetric, idempotent, relative error at most u <= 1/1024, exact on the literals 1/2, 1, 2, 3), representable bounds a <= b and a positive tolerance, fminbound returns, and every point at which the target is evaluated and the returned point are numbers of [a, b], whatever values (NaN and infinities included) the target returns. Needed of the constants of the routine: the relative tolerance is at least 16 u and the golden constant is at most 1/2 (in the code 1.48e-8 and 0.38, with u = 1.1e-16).", "quantifier": "all targets, bounds, tolerances, budgets and roundings meeting the contract", "why_tests_cant": "The steps compare rounded quantities; whether an accepted step can leave the bounds depends on all rounding errors together, which no test covers.", "anchors": ["proadv/statistics/optimize/optimize.py:fminbound", "proadv/statistics/optimize/optimize.py:_optimize_within_bounds"]}
{"id": "C216", "title": "kalman_filter in rounded arithmetic", "statement": "With every operation rounded (monotone, idempotent, relative error at most u <= 1/32, 1 and 1+u rounding to 1), non-negative prior covariance and process noise and positive measurement noise: kalman_filter returns one estimate per measurement; all covariances are non-negative, each at most the predicted one and at most (1+u)^2 (r + 3 u P) for the predicted covariance P; an estimate never moves away from the measurement; and estimate i lies in every interval [lo, hi] containing the initial state and measurements 0..i widened by 4 u max(|lo|,|hi|), whatever the number of samples. But a diffuse prior fails: if P0 + R rounds to P0 (binary64: P0 = 2^54, R = 1) and there is no process noise, the filter returns the first measurement for ever, where exact arithmetic averages the measurements.", "quantifier": "all measurement sequences, noise levels and starts; all roundings meeting the contract", "why_tests_cant": "The bound holds for recordings of any length; the failure needs a particular ratio of prior to measurement noise.", "anchors": ["proadv/statistics/series.py:kalman_filter"]}
{"id": "C217", "title": "linear_interpolation and median in rounded arithmetic", "statement": "With every operation rounded (monotone, symmetric, idempotent, relative error at most u) and representable samples: a block of spikes between two samples a, b is filled by values between a and b, never beyond them, each within 4u|b-a| + u max(|a|,|b|) of the chord, as long as the gap n has 4 u n <= 1 (binary64: below 2^51 samples); and the median lies between the two middle samples (doubling being exact), within relative error u. The mean has no such guarantee: in binary64 the mean of 0.1, 0.1, 0.1 exceeds 0.1, so linear_interpolation fills a block at the end with a value above all samples.", "quantifier": "all representable series, spike sets and roundings meeting the contract", "why_tests_cant": "Whether an interpolated value can exceed its neighbours by rounding depends on the samples; tests compare with a tolerance.", "anchors": ["proadv/filtration/replacement/replacements.py:linear_interpolation", "proadv/statistics/descriptive.py:median", "proadv/statistics/descriptive.py:mean"]}
{"id": "C218", "title": "What ssa removes is at most the dropped eigenvalues", "statement": "For orthonormal eigenvectors of the lag-covariance matrix, let y be the filtered signal before the final rounding to four decimals and w(m) the number of windows containing sample m. Then the sum of w(m) (x(m) - y(m))^2 is at most the sum of the eigenvalues whose eigenvectors are dropped by the mobility test, and this bound is attained (signal [1, 0, 1], window 2). If every dropped eigenvalue is 0 - every window orthogonal to every dropped vector - ssa returns the signal itself rounded to four decimals.", "quantifier": "all finite real signals, all windows of at least two samples that fit, every eigensolver meeting the contract", "why_tests_cant": "The bound relates output, input and the spectrum of a data-dependent matrix for all signals; a test sees one signal.", "anchors": ["proadv/statistics/series.py:ssa", "proadv/statistics/series.py:_mobility"]}
{"id": "C219", "title": "Order and repetition in the list of spikes", "statement": "mean_value, median_value, the three moving-average replacements and ssa depend on the listed spikes as a set: order and repetition change nothing, errors included, in every arithmetic (non-negative indices for the last four). last_valid_data and linear_interpolation allow repetition in an increasing list, but need the order: with the spikes in decreasing order last_valid_data writes the preceding input sample, so all samples of a run but the first receive a spike; and linear_interpolation with distinct spikes of finite data in any non-increasing order succeeds, keeps the other samples (rounded) and leaves at least one spike NaN. cubic_12points_polynomial depends on order and on repetition even in an increasing list.", "quantifier": "all data, all lists of spikes; the NaN claim for all finite data and all lists of distinct valid indices that are not increasing", "why_tests_cant": "Tests use sorted lists as the detectors return them; concatenated or reversed lists are never tried.", "anchors": ["proadv/filtration/replacement/replacements.py:last_valid_data", "proadv/filtration/replacement/replacements.py:mean_value", "proadv/filtration/replacement/replacements.py:median_value", "proadv/filtration/replacement/replacements.py:linear_interpolation", "proadv/filtration/replacement/replacements.py:cubic_12points_polynomial", "proadv/filtration/replacement/replacements.py:simple_moving_average", "proadv/filtration/replacement/replacements.py:exponential_moving_average", "proadv/filtration/replacement/replacements.py:weighted_moving_average", "proadv/filtration/replacement/replacements.py:ssa"]}
{"id": "C220", "title": "Response of the spherical phase-space threshold to a high spike", "statement": "Add one spike of height M to an arbitrary finite series, at least three samples away from both ends. Once |M| is large enough, spherical_phasespace_thresholding returns a list that contains the spike and no sample more than two positions away from it; if the series has at least 46 samples, the samples two before and two after the spike, whose values are unchanged, are in the list as well.", "quantifier": "all finite series, all positions with three samples on either side, all heights of either sign beyond a bound depending on the series, all iteration numbers and stored means", "why_tests_cant": "The claim is about the limit of high spikes for every background series; the four-decimal rounding, the rotation angle and the division by the norm all change with the height, and a test sees one height on one series.", "anchors": ["proadv/filtration/detection/spherical.py:spherical_phasespace_thresholding", "proadv/filtration/detection/spherical.py:_gradients", "proadv/filtration/detection/spherical.py:_parameters", "proadv/filtration/detection/spherical.py:_spike_indices"]}
{"id": "C221", "title": "Negative entries in the list of spikes", "statement": "In Python an index -k means the sample n-k. mean_value, median_value, simple_moving_average, exponential_moving_average and ssa (when the filtered signal has the length of the record) honour this: every list of indices gives the same result or error as the list of positions meant. last_valid_data does too, except that -n raises IndexError although index 0 is accepted. The others do not: weighted_moving_average replaces -k by the weighted mean of the period samples before the spike (n-k takes the window from the spike on, or raises); linear_interpolation leaves -1 NaN without an error and replaces -k, k >= 2, by the next sample; cubic_12points_polynomial replaces -k by the mean of its two neighbours wherever the sample lies, and rejects -1.", "quantifier": "all data (finite for the last three functions), all lists of indices not below -n, every arithmetic for the structural part", "why_tests_cant": "The detectors return non-negative indices, so tests never pass a negative one; the claim is about every list and every length.", "anchors": ["proadv/filtration/replacement/replacements.py:last_valid_data", "proadv/filtration/replacement/replacements.py:mean_value", "proadv/filtration/replacement/replacements.py:median_value", "proadv/filtration/replacement/replacements.py:linear_interpolation", "proadv/filtration/replacement/replacements.py:cubic_12points_polynomial", "proadv/filtration/replacement/replacements.py:simple_moving_average", "proadv/filtration/replacement/replacements.py:exponential_moving_average", "proadv/filtration/replacement/replacements.py:weighted_moving_average", "proadv/filtration/replacement/replacements.py:ssa"]}
{"id": "C222", "title": "The equation behind the bandwidth search of bivariate_kernel", "statement": "Let a(t) be the stationary time that _evolve computes from a guess t. It is a positive, continuous, strictly increasing function of t, bounded below for t >= 0 by (2 pi^5 N R)^(-1/3), R the roughness of the squared coefficients. The function handed to root is 1 + t - t/a(t): it is 1 at t = 0 and vanishes at t >= 0 exactly when a(t) = t/(1+t), so never at a fixed point a(t) = t (there it equals t), and at a zero a(t) < t. root therefore returns the brentq result exactly when some tried bracket b < 0.1 has a(b) <= b/(1+b), and that bracket contains a zero; otherwise, in particular whenever 2 pi^5 N R <= 1331, it returns the fminbound result.", "quantifier": "every coefficient matrix with non-negative entries and a positive one off the first row and column, every sample count, every guess; brentq as documented by scipy (ValueError when the signs agree, a value otherwise)", "why_tests_cant": "The searched function is a five-level nested recursion of fractional powers and exponentials; monotonicity, continuity and the location of its zeros for all data cannot be sampled.", "anchors": ["proadv/kernel/bivariate.py:root", "proadv/kernel/bivariate.py:_evolve", "proadv/kernel/bivariate.py:_func", "proadv/kernel/bivariate.py:bivariate_kernel"]}
{"id": "C223", "title": "Overflow never passes unnoticed through means and moving averages", "statement": "In floating-point arithmetic that rounds and overflows to infinity: if mean, variance, or an output of moving_average, weighted_moving_average or exponential_moving_average is a finite number, it satisfies the same rounding-error bound as without overflow (so an overflow in any intermediate step always shows as inf or NaN); mean cannot overflow when (1+u)^(n+1) sum|x| fits, exponential_moving_average not when (1+u)^(3n) max|x| fits. Once a full window of moving_average overflows, no later output is a number, even after the window has left the large samples; mean and median of two equal representable samples can be inf. kalman_filter does not have the property: with covariance and measurement noise equal to the largest binary64 number it returns the initial state for ever, whatever is measured.", "quantifier": "every series of finite numbers, every window, every alpha in (0,1], every arithmetic satisfying the contract (binary64 with left-to-right sums is one)", "why_tests_cant": "Overflow needs samples near 1e308 that no realistic test contains, and absence of silently wrong results is a statement about all inputs.", "anchors": ["proadv/statistics/descriptive.py:mean", "proadv/statistics/descriptive.py:median", "proadv/statistics/spread.py:variance", "proadv/statistics/series.py:moving_average", "proadv/statistics/series.py:weighted_moving_average", "proadv/statistics/series.py:exponential_moving_average", "proadv/statistics/series.py:kalman_filter"]}
{"id": "C224", "title": "The trivariate kernel ignores the order of the samples", "statement": "Reordering the pairs of samples handed to trivariatekernel.kernel reorders the flags: both calls raise the same exception, or a pair is flagged in one recording iff it is flagged in the other, wherever it stands; equal pairs get equal flags, and reversing both components in time mirrors the indices.", "quantifier": "every list of pairs of real samples, every permutation, every grid size; exact arithmetic", "why_tests_cant": "The rotation angle, the grid, the covariance and the density are sums over all samples; invariance under every permutation of recordings of every length cannot be sampled.", "anchors": ["proadv/filtration/detection/trivariatekernel.py:kernel", "proadv/filtration/detection/trivariatekernel.py:_rotation", "proadv/filtration/detection/trivariatekernel.py:_density", "proadv/filtration/detection/trivariatekernel.py:_cutoff"]}
{"id": "C225", "title": "moving_average of fixed-width integer recordings", "statement": "On an unsigned b-bit recording output i of moving_average is the trailing mean plus 2^b/w times the number of samples up to i that are lower than the sample w before; so it is the trailing mean everywhere iff no such sample exists, and an error never disappears. On a signed recording the error is 2^b/w times (drops by more than half the range minus rises by half the range or more); it is absent when all samples lie within a quarter of the range of the type.", "quantifier": "every recording of representable integers, every width b >= 1, every window with 2^b w <= 2^64", "why_tests_cant": "Tests use float or small int64 arrays; wrap-around needs narrow types, and the closed form of the accumulated error is a statement about all recordings.", "anchors": ["proadv/statistics/series.py:moving_average", "proadv/statistics/descriptive.py:mean"]}
{"id": "C226", "title": "Differences of fixed-width integer recordings", "statement": "acceleration_thresholding of an integer recording lists a sample iff it is beyond the mean +- k_sigma std and the representable number congruent modulo 2^bits to the difference to its predecessor exceeds the threshold. On unsigned recordings tag 2 therefore always returns an empty list, and tag 1 lists a high sample iff it rises by more than k_gravity*gravity/frequency or falls by less than 2^b - k_gravity*gravity/frequency counts. Without wrapping the result is that of exact integers. The derivatives of calculate_derivatives and _derivatives of an unsigned recording are never negative: where the signal falls by d they are 2^(b-1) - ceil(d/2).", "quantifier": "every non-empty integer recording, every width, every real frequency (non-negative for the unsigned tag 2 claim, positive for the unsigned tag 1 claim), gravity and thresholds with k_gravity*gravity >= 0", "why_tests_cant": "Depends on the dtype of the input array, which no test varies; the characterisation quantifies over all recordings and thresholds.", "anchors": ["proadv/filtration/detection/acceleration.py:acceleration_thresholding", "proadv/filtration/detection/phasespace.py:calculate_derivatives", "proadv/filtration/detection/trivariatekernel.py:_derivatives"]}
{"id": "C227", "title": "When the order of the velocity components matters to velocity_correlation", "statement": "velocity_correlation(u, v, w) returns the same indices, or raises the same exception, when two adjacent arguments whose components are uncorrelated or of equal variance are exchanged; if that holds for all three pairs, every order of the arguments gives the same result. In general the order matters: for components u, v that are correlated but not perfectly, with v uncorrelated with w and the pair (u, w) acceptable, multiplying v by any sufficiently small factor gives a call that succeeds as (u, v, w) and raises ValueError as (v, u, w).", "quantifier": "all real recordings of equal length (at least 3 for the negative part), exact arithmetic", "why_tests_cant": "Swapping components changes which variance enters the axes and the rotation; only a statement over all recordings separates the pairs for which this is harmless from the others.", "anchors": ["proadv/filtration/detection/correlation.py:velocity_correlation", "proadv/filtration/detection/poincare.py:calculate_ab", "proadv/filtration/detection/poincare.py:calculate_rho"]}
{"id": "C228", "title": "Reversing time in spherical_phasespace_thresholding", "statement": "Reversing the recording negates the rounded rotation angle. If the end terms of the angle cancel (f_last^2 - f_0^2 + (f_0 f_1 - f_prev f_last)/2 = 0 for the centred samples f), sample i of the reversed recording is flagged iff its mirror image is flagged in the original. Without that condition this fails: on -2,-1,0,-2,-1,1,0,5 sample 6 is not flagged, and on the reversed recording the same sample, now at index 1, is.", "quantifier": "all real recordings of at least 2 samples; the counterexample is one recording", "why_tests_cant": "The angle depends on the end samples only and its sign decides how the ellipsoid is tilted; symmetric test signals do not show the dependence on the direction of time.", "anchors": ["proadv/filtration/detection/spherical.py:spherical_phasespace_thresholding", "proadv/filtration/detection/spherical.py:_gradients", "proadv/filtration/detection/spherical.py:_rotation"]}
{"id": "C229", "title": "Frequency response of weighted_moving_average", "statement": "A sinusoid stays a sinusoid of the same frequency: output k is |H| A cos(w k + phi + arg H) with H = sum_{j<p} (j+1) e^{i w j} / (p(p+1)/2). The gain |H| is positive and at most 1 for every frequency, so no frequency is removed; for p >= 2 it is 1 only when cos w = 1. At the Nyquist frequency it is 1/p for odd p and 1/(p+1) for even p.", "quantifier": "all amplitudes, frequencies, phases, lengths and periods 1 <= p <= n; exact arithmetic", "why_tests_cant": "A statement about every frequency and period; tests average a handful of numbers.", "anchors": ["proadv/statistics/series.py:weighted_moving_average"]}
{"id": "C230", "title": "Symmetries of ssa", "statement": "If the solver returns an orthonormal set of eigenvectors of the lag matrix and no two of them share a non-zero eigenvalue, then: ssa of the reversed recording is the reversed result; ssa(-x) = -ssa(x); and multiplying the recording by k != 0 multiplies the reconstruction by k before it is rounded to 4 decimals.", "quantifier": "all finite real recordings and all solvers meeting the stated contract, exact arithmetic", "why_tests_cant": "The eigenvectors are determined up to sign and order only; the statements hold for every admissible choice by the solver.", "anchors": ["proadv/statistics/series.py:ssa", "proadv/statistics/series.py:_mobility", "proadv/statistics/series.py:_diagonal_average"]}
{"id": "C231", "title": "Phase-space thresholding of fixed-width integer recordings", "statement": "For signed samples bounded by M with M^2 < 2^(bits-1) and n M^2 < 2^63, phasespace_thresholding returns what exact integers give. On an unsigned recording that is constant except for one sample lower by a single count, the sample before the dip is flagged, while the same numbers as signed 64-bit integers flag nothing. If every square of a sample is a multiple of 2^bits, the third plane flags nothing and the result is decided by the first two planes.", "quantifier": "all widths (at least 3 bits signed, 2 unsigned), lengths and recordings as stated, exact floats after the integer operations", "why_tests_cant": "Wrapping depends on the width and on the data; a statement over all widths and recordings is needed to say when it cannot matter.", "anchors": ["proadv/filtration/detection/phasespace.py:phasespace_thresholding", "proadv/filtration/detection/phasespace.py:calculate_parameters", "proadv/filtration/detection/phasespace.py:calculate_derivatives"]}
{"id": "C232", "title": "Trivariate kernel on fixed-width integer recordings", "statement": "For signed samples bounded by M with M^2 < 2^(bits-1) and 2 n^2 M^2 < 2^63, kernel returns what it returns for the same samples as floats. _transform rotates an unsigned sample and then, unless its first component is 0, moves it by 2^bits sin(theta) along the second axis; a signed sample is only rotated unless its first component is the lowest number of the type. So an unsigned recording need not keep its distances: at theta = pi/2 the 8-bit samples (0,0) and (1,0) end up 255 apart.", "quantifier": "all widths of at least 1 bit, all representable samples and angles; for the first part all density estimators and grid sizes", "why_tests_cant": "Negation of an unsigned array wraps for every value but zero, which only a statement over all samples and widths separates.", "anchors": ["proadv/filtration/detection/trivariatekernel.py:_rotation", "proadv/filtration/detection/trivariatekernel.py:_transform", "proadv/filtration/detection/trivariatekernel.py:kernel"]}
{"id": "C233", "title": "Matching of inexact conjugates by _cxr", "statement": "The order of the roots does not change the result of _cxr. If it returns, the roots far from the real axis are split into pairs, each conjugate up to the tolerance; the first list holds the means of the pairs, the second the real parts of the others. Roots whose real parts agree up to the tolerance are paired by distance from the axis, whatever the order of their real parts, and listed in that order, equal distances by real part. Not all matching roots are accepted: for every tolerance below 1/2 there are two pairs, each conjugate up to the tolerance, for which it raises ValueError.", "quantifier": "all lists of complex numbers and all tolerances as stated, exact arithmetic; the rejected family is given for every tolerance in (0, 1/2)", "why_tests_cant": "Needs roots that differ from exact conjugates by less than the tolerance and whose order differs above and below the axis; polynomial root finders produce these only by chance.", "anchors": ["proadv/statistics/signal/butter.py:_cxr"]}
{"id": "C234", "title": "Averages and variance under gradual underflow", "statement": "In arithmetic where sums and differences of representable numbers have relative error u and products and quotients are off by u|x| + eta (gradual underflow): mean is off by eta more than the bound without underflow; variance by eta inside the squared mean error plus ((1+u)^(n+1) + 1) eta; entry i of moving_average by (i+1)(1+u)^i eta; entry k of weighted_moving_average by ((1+u)^(p+1) + 1) eta; exponential_moving_average by 2i(1+u)^(3i) eta at index i, and by a bound free of i when (1-alpha)(1+u)^3 < 1. In binary64 with subnormal numbers, variance is exactly 0 for every recording of fewer than 2^51 samples of size at most 2^-540, constant or not; and exponential_moving_average of k smallest numbers followed by zeros stays there for ever when k(alpha + 2^-53) < 1/2.", "quantifier": "every arithmetic meeting the contract, every series of representable numbers, every window, every alpha in (0,1]; the two effects for all recordings as stated", "why_tests_cant": "Underflow needs samples below 1e-160 that tests never contain, and the error bounds quantify over all inputs and roundings.", "anchors": ["proadv/statistics/descriptive.py:mean", "proadv/statistics/spread.py:variance", "proadv/statistics/series.py:moving_average", "proadv/statistics/series.py:weighted_moving_average", "proadv/statistics/series.py:exponential_moving_average"]}
{"id": "C235", "title": "Reynolds stresses and kinetic energy in floating point", "statement": "In arithmetic with unit roundoff u and underflow error eta, reynolds_stresses of three recordings of n storable samples returns six finite numbers. Each differs from the variance or covariance by at most ((1+u)^(n+4) - 1) times half of (var x + ex^2 + var y + ey^2), plus ex*ey, plus ((1+u)^(n+1) + 1) eta, where ex = ((1+u)^(n+1) - 1) mean|x| + eta bounds the error of the computed mean. kinetic_turbulent_energy differs from half the sum of the variances by at most half of (1+u)^3 times the three errors plus ((1+u)^3 - 1) times the variances, plus eta; its recordings may differ in length.", "quantifier": "every arithmetic meeting the contract of C234 (binary64 with subnormal numbers among them), every three recordings of storable numbers", "why_tests_cant": "The bound covers every recording and every rounding; tests compare a few stresses with a tolerance.", "anchors": ["proadv/statistics/signal/fluid.py:reynolds_stresses", "proadv/statistics/signal/fluid.py:kinetic_turbulent_energy"]}
{"id": "C236", "title": "power_spectra of a pure tone", "statement": "For a tone A cos(2 pi k0 i/block + phase) with a whole number k0 of periods per block (block >= 32, k0 at least 2 from 0 and from block/2) the one-sided spectrum has its only maximum at entry k0, whose frequency is k0 fs/block. The maximum lies between A^2 (block-3)^2/(3 fs (block-1)) and A^2 (block+1)^2/(3 fs (block-1)); every entry two or more places away is at most 16 A^2/(3 fs (block-1)), a fraction 16/(block-3)^2 of it.", "quantifier": "all amplitudes, phases, sampling rates, blocks of at least 32 samples, lengths and overlaps below the block", "why_tests_cant": "Covers every tone on the frequency grid and every block size; tests can inspect a few tones only.", "anchors": ["proadv/statistics/signal/spectrum.py:power_spectra"]}
{"id": "C237", "title": "std and acceleration_thresholding with rounding and underflow", "statement": "In rounded arithmetic with gradual underflow std of n storable numbers returns a non-negative number; its error is at most (1+u) sqrt(V) + u sigma + eta, and (1+u) V/sigma + u sigma + eta when the numbers are not all equal, where V bounds the error of the computed variance. acceleration_thresholding flags a sample exactly when exact arithmetic does, unless the sample is within an explicit margin of the velocity threshold or its acceleration within an explicit margin of the acceleration threshold; with no sample in a margin the result is the same list.", "quantifier": "all arrays of storable numbers, frequencies, gravities and factors, every rounding that meets the contract and keeps signs, both tags", "why_tests_cant": "Tests run one machine's arithmetic on sample data; the margin that separates reliable from unreliable decisions is not observable.", "anchors": ["proadv/statistics/spread.py:std", "proadv/filtration/detection/acceleration.py:acceleration_thresholding"]}
{"id": "C238", "title": "three_dimensional_kernel of integer recordings", "statement": "For signed samples bounded by M with M^2 < 2^(bits-1) and 2 n^2 M^2 < 2^63, three_dimensional_kernel returns what it returns for exact integers. Half differences of integers are truncated, so an integer recording of two or more samples in which samples two apart differ by at most one count raises LinAlgError on every grid of at least 1; and so does one whose truncated first differences change by at most one count over two samples (a ramp), on every grid of at least 2. The same numbers stored as floats may be accepted: 0,0,1,1,1 is.", "quantifier": "all integer recordings as stated, all widths of at least 3 bits, all grid sizes; for the first part all density estimators", "why_tests_cant": "The rejection depends on the element type of the array and holds for an infinite family of recordings; tests use float data.", "anchors": ["proadv/filtration/detection/trivariatekernel.py:three_dimensional_kernel", "proadv/filtration/detection/trivariatekernel.py:_derivatives"]}
{"id": "C239", "title": "How far fminbound moves in one pass", "statement": "The points fminbound evaluates are the starting point and one point per pass of its loop. The first pass takes the golden section of the longer part of the bracket. Each later pass either does the same, or evaluates the target at most half as far from the best point as the pass before the previous one did (at most half of the longer part of the previous bracket if the previous pass was a golden-section step), or at the least distance allowed, eps*|x| + tolerance/3. So in a stretch without golden-section steps the distances are halved every other pass until they reach the least distance.", "quantifier": "every target (NaN and infinite values included), bounds lower <= upper, tolerance > 0, eps >= 0, 0 < golden <= 1/2, and every number of passes", "why_tests_cant": "A wrong choice of the remembered step (step before last) changes neither the bounds nor the value found, only the speed on some targets; tests of the minimum found do not see it.", "anchors": ["proadv/statistics/optimize/optimize.py:_optimize_within_bounds", "proadv/statistics/optimize/optimize.py:fminbound"]}
{"id": "C240", "title": "fminbound in rounded arithmetic stops by itself and finds the minimum", "statement": "With every operation rounded (monotone, odd, exact on 1/2, 1, 2, 3, relative error at most 1e-10, as in binary64), fminbound with max_evaluations >= 8(upper-lower)/tolerance always stops by its own criterion (flag never 1), whatever the target returns. If the target, compared at representable points at least tolerance/8 apart, falls up to z and rises after it, then the flag is 0, the reported value is the value at a point within 2.2(1.5e-8|x| + tolerance/3) of z, and the returned point is within twice that distance. The computed parabola (x-c)*(x-c) in 53-bit arithmetic is such a target for every tolerance above 128*2^-53 of the width.", "quantifier": "all targets (for the stopping), all targets unimodal beyond tolerance/8 (for the minimum), all representable bounds lower <= upper, all tolerances > 0, all such roundings; no overflow or underflow", "why_tests_cant": "Rounding may stall the search or push a point onto another one; whether that can happen depends on the margin between the tolerance and the spacing of floats over all bounds and targets.", "anchors": ["proadv/statistics/optimize/optimize.py:fminbound", "proadv/statistics/optimize/optimize.py:_optimize_within_bounds"]}
{"id": "C241", "title": "brentq in rounded arithmetic converges within an explicit number of iterations", "statement": "With every arithmetic operation of brentq rounded (monotone, idempotent, relative error at most u <= 1/1024) and a tolerance well above the spacing of floats in the bracket (256 u |x| <= xtol + rtol |x| on the bracket): on representable end points with computed values of opposite sign and a bracket narrower than 0.48 * 1.9^n * xtol, brentq reports convergence after at most (n+1)^2 - 3 iterations (one if n <= 1) whenever maxiter allows them, inside the bracket, and returns a zero of the computed function or a point with a sign change within 1.01 (xtol + rtol |root|). In binary64 with the default tolerances and maxiter = 500 every bracket at most 0.005 wide converges within 481 iterations.", "quantifier": "all functions (continuous or not), all representable brackets, tolerances and n, all roundings meeting the contract; no overflow or underflow", "why_tests_cant": "Rounding could stall the iteration or make it cycle between two neighbouring floats; the bound is a worst case over all functions and all roundings.", "anchors": ["proadv/statistics/optimize/optimize.py:brentq"]}
{"id": "C242", "title": "cdf and sf in floating point: accuracy, and the lost upper tail", "statement": "With every operation rounded (monotone, odd, exact on 1/2, 1, 2, relative error at most u <= 1/1024) and library functions of relative error at most eps <= 1/8: every value of cdf is within 4u + eps of the normal distribution function and lies in (0, 1]; for x <= -1 with x^2 u <= 1/256 its relative error is at most 2 eps + 10 x^2 u; every value of sf is within 5u + eps of the exact one and lies in [0, 1]. With 53 bits sf returns exactly 0 and log_sf minus infinity for every x >= 8.5, where the exact value is positive and cdf(-x) gives it with relative error at most 2 eps + 10 x^2 / 2^53 (x <= 2^22).", "quantifier": "all non-empty arrays of finite floats of any dimension >= 1, all roundings and all library functions meeting the contracts; no overflow or underflow", "why_tests_cant": "Accuracy over all arguments, roundings and libraries; a test compares with one library at a few points.", "anchors": ["proadv/statistics/distributions/normal.py:cdf", "proadv/statistics/distributions/normal.py:sf", "proadv/statistics/distributions/normal.py:log_sf"]}
{"id": "C243", "title": "pdf and log_pdf in floating point: accuracy", "statement": "With every operation rounded and library functions of relative error eps (u, eps <= 1/1024), for std > 0, z = (v - mean)/std and D = 5u + 2 eps + 3(u + eps)|log std| + 4 u z^2: the computed density is positive and, when D <= 1/2, has relative error at most 3D; log_pdf is off by at most 2D + 3 eps + eps |log p|.", "quantifier": "all non-empty arrays of finite floats, all means and deviations > 0, all roundings and libraries meeting the contracts; no overflow or underflow", "why_tests_cant": "The error grows with the square of the standardised sample; a test sees only the samples tried.", "anchors": ["proadv/statistics/distributions/normal.py:pdf", "proadv/statistics/distributions/normal.py:log_pdf"]}
{"id": "C244", "title": "log_pdf and log_cdf are minus infinity beyond 39 standard deviations", "statement": "In binary64 with gradual underflow pdf (mean 0, std 1) returns exactly 0 and log_pdf minus infinity for every sample with |x| >= 39, where the exact logarithm is -x^2/2 - log(2 pi)/2; cdf returns 0 and log_cdf minus infinity for every x <= -39, where the exact value is positive.", "quantifier": "all non-empty arrays of such samples; library functions rounded once; no overflow", "why_tests_cant": "The claim covers every sample beyond the limit in both tails.", "anchors": ["proadv/statistics/distributions/normal.py:log_pdf", "proadv/statistics/distributions/normal.py:log_cdf", "proadv/statistics/distributions/normal.py:pdf", "proadv/statistics/distributions/normal.py:cdf"]}
{"id": "C245", "title": "skewness and kurtosis in floating point; constant recordings", "statement": "With relative rounding error u per operation, var > 0, G = (1+u)^(n+8) - 1 <= 1/16 and kappa <= 1 the bound on the error of the computed mean divided by the standard deviation: |skewness - gamma| <= 52 G (rho + kappa^3) + 3 kappa + kappa^3 + 2 kappa^2 |gamma| (rho the third absolute standardised moment) and |kurtosis - beta| <= 13 G (beta + D) + D + 2 kappa^2 beta with D = 4 kappa |gamma| + 6 kappa^2 + kappa^4. For a constant recording both results are NaN if and only if the computed mean equals the constant; otherwise the skewness is within 13 G of +1 or -1 and the kurtosis within 13 G of 1. In binary64 the recording 0.1, 0.1, 0.1 has skewness exactly -1 and kurtosis exactly 1.", "quantifier": "all non-empty recordings of finite floats and all roundings and summation orders of the standard model that keep signs; no overflow or underflow", "why_tests_cant": "A test of a constant recording usually picks an integer, for which the mean is exact and NaN is returned.", "anchors": ["proadv/statistics/moment.py:skewness", "proadv/statistics/moment.py:kurtosis"]}
{"id": "C246", "title": "velocity_correlation is not affected by sufficiently small rounding errors", "statement": "Let no two components be perfectly correlated, let the condition for the existence of each ellipse (cov^2 var y < var x ^3) not be an equality, and let no sample lie on an existing ellipse. Then there is u0 > 0 such that in every arithmetic with relative error at most u0 velocity_correlation returns the same indices, or raises the same error, as in exact arithmetic.", "quantifier": "all triples of recordings of equal length at least 3 that are not on a decision boundary; all roundings and summation orders of the standard model that keep signs", "why_tests_cant": "Quantifies over all arithmetics; a test runs one.", "anchors": ["proadv/filtration/detection/correlation.py:velocity_correlation", "proadv/filtration/detection/correlation.py:calculate_parameters", "proadv/filtration/detection/poincare.py:calculate_ab", "proadv/filtration/detection/poincare.py:calculate_rho"]}
{"id": "C247", "title": "phasespace_thresholding: rounding to four decimals makes the second derivative a tie", "statement": "The half difference of the first derivative at an inner sample is always a multiple k of 0.00005; for even k it is the second derivative, for odd k it is half way between two multiples of 0.0001 and the second derivative is off by exactly 0.00005. If no half difference is such a tie and no standard deviation, ellipse or phase point is on a boundary, every sufficiently accurate arithmetic returns the same indices as exact arithmetic. With ties this is false: for the recording 0, 0, 0, 0.0002 exact arithmetic does not return the second sample, but arithmetics with arbitrarily small rounding error do.", "quantifier": "all float recordings (ties: all inner samples; stability: all recordings of at least 2 samples off the boundaries; all roundings and summation orders of the standard model that keep signs)", "why_tests_cant": "The stability claim quantifies over all arithmetics, and the instability claim over all error bounds.", "anchors": ["proadv/filtration/detection/phasespace.py:phasespace_thresholding", "proadv/filtration/detection/phasespace.py:calculate_derivatives", "proadv/filtration/detection/phasespace.py:calculate_parameters"]}
{"id": "C248", "title": "pollution_rate in floating point", "statement": "In arithmetic with relative error u and absolute error eta below the normal range, when no sample is within an explicit margin of its band, pollution_rate counts exactly the samples that exact arithmetic counts, and the percentage differs from 100 m/n by at most ((1+u)^2-1) 100 m/n + (100 (1+u) + 1) eta. The margin is needed: for x = [0, 10], x_fil = [0, 5], k = 1 the sample 10 lies on its band; exact arithmetic reports 0 %, and for every u > 0 there is an arithmetic of accuracy u that reports 50 %.", "quantifier": "all non-empty recordings of representable floats off the bands, all k, all arithmetics of the standard model with gradual underflow that keep signs", "why_tests_cant": "Quantifies over all arithmetics and recordings; a test runs one.", "anchors": ["proadv/filtration/detection/pollution.py:pollution_rate"]}
{"id": "C249", "title": "phasespace_thresholding_premodification in floating point", "statement": "In every arithmetic that keeps signs, for all data including NaN and infinities and every c2 that is not negative, the data is returned unchanged. Outside an explicit margin around the threshold, sample x is listed as unremovable exactly when |x| <= c1 * MAD (not |x - median|), with the exact MAD.", "quantifier": "all data (unchanged); all non-empty recordings of representable floats, c1 >= 0 (unremovable); all arithmetics of the standard model with gradual underflow in which 2 is exact", "why_tests_cant": "Quantifies over all arithmetics, thresholds and data, including special values.", "anchors": ["proadv/filtration/detection/phasespace.py:phasespace_thresholding_premodification"]}
{"id": "C250", "title": "spherical thresholding: the first derivative is full of rounding ties", "statement": "The recording is first rounded to four decimals, so at an inner sample the first derivative is a multiple k of 0.00005. Without rotation it is used as it is; after any non-zero rotation an even multiple is kept and an odd multiple, half way between two multiples of 0.0001, is moved by exactly 0.00005.", "quantifier": "all finite recordings, all iterations and offsets, all inner samples, all rotation angles", "why_tests_cant": "Holds for every recording and every angle; whether a given value is a tie is invisible in the output of a run.", "anchors": ["proadv/filtration/detection/spherical.py:_rotation", "proadv/filtration/detection/spherical.py:_descript", "proadv/filtration/detection/spherical.py:spherical_phasespace_thresholding"]}
{"id": "C251", "title": "the final rounding of linear_interpolation, cubic_12points_polynomial and polynomial_replacement in floating point", "statement": "np.around multiplies by 10^d, rounds to an integer and divides, product and quotient being rounded. In arithmetic of accuracy u: samples that are not spikes are returned exactly by linear_interpolation, cubic_12points_polynomial and polynomial_replacement, if they are the numbers k 10^-d as stored with ((1+u)^2-1)|k| < 1/2 (binary64: |k| < 2^51); values that linear_interpolation fills in between two samples lie between the values returned for those samples; every returned value is within (1+u)/2 10^-d + ((1+u)^2-1)|x| of the value x before the rounding. It is not always the nearest decimal: the binary64 number written 0.00005 exceeds 0.00005 but becomes 0 with 4 decimals.", "quantifier": "all finite float recordings, all numbers of decimals, all strictly increasing in-range spike lists; all roundings of the standard model (second claim: monotone, odd, idempotent), all integers k within the bound", "why_tests_cant": "Quantifies over all recordings, decimals and arithmetics; the loss at 0.00005 needs a value next to a tie.", "anchors": ["proadv/filtration/replacement/replacements.py:linear_interpolation", "proadv/filtration/replacement/replacements.py:cubic_12points_polynomial", "proadv/filtration/replacement/replacements.py:polynomial_replacement"]}
{"id": "C252", "title": "overflow in linear_interpolation", "statement": "With overflow to infinities: a sample that is not a spike is returned as an infinity of its sign when its product with 10^decimals overflows in the final np.around, and as an ordinary number when neither product nor quotient overflows. When the difference of the two samples next to a block of spikes overflows, the whole block is filled with infinities; when neither that difference nor the rounding of the two samples overflows, the block is filled with ordinary numbers between the two returned samples. In binary64 with 4 decimals the sample 2^1020 becomes infinity although it is not a spike, and the spike between -2^1023 and 2^1023 is replaced by infinity although the chord passes through 0.", "quantifier": "all finite recordings, all strictly increasing in-range spike lists, all decimals, all arithmetics with overflow (third claim: monotone odd idempotent rounding)", "why_tests_cant": "Overflow thresholds depend on the decimals; a test would need values near the top of the range.", "anchors": ["proadv/filtration/replacement/replacements.py:linear_interpolation"]}
{"id": "C253", "title": "ssa keeps or erases a geometric signal as a whole", "statement": "For the signal a, a q, a q^2, ... (growing, decaying, alternating or constant) ssa returns either the signal rounded to four decimals or all zeros, never anything in between: the signal if the mobility of the vector 1, q, ..., q^(L-1), which is |q - 1| sqrt((1 + ... + q^(2(L-2))) / (1 + ... + q^(2(L-1)))) / (L - 1) divided by 1/L rounded to four decimals, does not exceed the mobility of the reference sine, and zeros otherwise. The amplitude and the length of the recording play no part in the decision, nor does the solver's choice of orthonormal eigenvectors.", "quantifier": "all lengths, amplitudes, ratios, sampling and cut-off frequencies, all windows of at least 2 samples, every eigensolver meeting the contract", "why_tests_cant": "Holds for all ratios, windows and solver choices; a test samples a few and uses one solver.", "anchors": ["proadv/statistics/series.py:ssa", "proadv/statistics/series.py:_mobility"]}
{"id": "C254", "title": "Reynolds stresses and kinetic energy with underflow and overflow", "statement": "With rounding, gradual underflow and overflow together: for finite recordings of one length reynolds_stresses always returns six values, and each that is a number is within the error of C235 of the exact stress; the same of kinetic_turbulent_energy. Nothing overflows while 3 (1+u)^3 ((1+u)^(n+1) n P + eta) is at most the largest number, P bounding the product of two deviations of samples up to B >= 1 (binary64: 1000 samples up to 10^150). With left-to-right sums the normal stresses and the energy are never negative and never NaN: a normal stress is plus infinity as soon as the square of one deviation overflows, and the energy is as soon as one normal stress is. The shear stresses have no such protection: in binary64 two uncorrelated components alternating between +-2^600 get shear stress NaN, although it is 0.", "quantifier": "all finite recordings, all arithmetics meeting the contract (never-NaN part: left-to-right summation, sign-preserving rounding)", "why_tests_cant": "Overflow of a square starts at the square root of the range; a test would have to combine magnitudes, lengths and signs.", "anchors": ["proadv/statistics/signal/fluid.py:reynolds_stresses", "proadv/statistics/signal/fluid.py:kinetic_turbulent_energy"]}
{"id": "C255", "title": "mean, variance and moving averages with underflow and overflow together", "statement": "With rounding, gradual underflow and overflow together, mean, variance and the three moving averages of finite samples never raise, and every value or entry that is a number is within the error of C234 of the exact one; what is not a number is an infinity or NaN. In binary64 one run of moving_average can meet both limits: the means of 2^-1074, 0, -2^1023, 0, 2^1023 over two samples come out as 0 where 2^-1075 is exact and as infinity where 2^1022 is exact.", "quantifier": "all finite samples, window lengths and smoothing factors, all arithmetics meeting the contract", "why_tests_cant": "Needs values at both ends of the floating-point range.", "anchors": ["proadv/statistics/descriptive.py:mean", "proadv/statistics/spread.py:variance", "proadv/statistics/series.py:moving_average", "proadv/statistics/series.py:weighted_moving_average", "proadv/statistics/series.py:exponential_moving_average"]}
{"id": "C256", "title": "The mesh and the bandwidth factor of the trivariate kernel", "statement": "_profile gives back the two axes of the mesh of _scaling and raises IndexError when either axis is empty; _position lists its nodes row by row, so that reshaping values at the nodes puts the value at (x_i, y_j) in row i, column j. For finite samples and a grid of at least 2, each axis starts at the smallest and ends at the largest rotated coordinate in equal steps, and every coordinate is within half a step of a grid point. _scaling raises ValueError exactly on an empty component. _factor is n^(-1/(d+4)): 1 for one sample, strictly decreasing in the number of samples with limit 0, strictly increasing in the number of rows for two or more samples.", "quantifier": "all axes and all float arithmetics for the mesh; all finite samples and grids of at least 2 for the covering; all numbers of samples and rows", "why_tests_cant": "A transposed ravel or an axis that stops short of the largest sample gives plausible densities on symmetric test data.", "anchors": ["proadv/filtration/detection/trivariatekernel.py:_scaling", "proadv/filtration/detection/trivariatekernel.py:_profile", "proadv/filtration/detection/trivariatekernel.py:_position", "proadv/filtration/detection/trivariatekernel.py:_estimation", "proadv/filtration/detection/trivariatekernel.py:_factor"]}
{"id": "C257", "title": "The trivariate kernel ignores the sign of the grid", "statement": "Nothing rejects a negative grid: kernel and three_dimensional_kernel return, or raise, on a grid of -g what they do on g. On a grid of -g with g at least 2 kernel succeeds on all finite samples that are not on one line.", "quantifier": "all samples including NaN and infinities, all integer grids, all density estimates", "why_tests_cant": "A missing validation is only visible for an argument no test passes, and equality with the positive grid has to hold for every record.", "anchors": ["proadv/filtration/detection/trivariatekernel.py:kernel", "proadv/filtration/detection/trivariatekernel.py:three_dimensional_kernel", "proadv/filtration/detection/trivariatekernel.py:_scaling", "proadv/filtration/detection/trivariatekernel.py:_cutoff"]}
{"id": "C258", "title": "Overflow silences acceleration_thresholding and pollution_rate", "statement": "In arithmetic with rounding, underflow and overflow: if the exact variance of finite samples exceeds the largest float by more than the rounding error, std returns an infinity or NaN, acceleration_thresholding returns no index for either tag and every frequency, gravity and gravity factor with a positive k_sigma, and pollution_rate against any series of the same length is 0 for a positive factor. If the velocity threshold, the acceleration threshold and all accelerations are numbers, the flags are those of the arithmetic without overflow, for which C237 holds. Witness: the spike in 0, 0, 0, 0, 2^600 is flagged by exact arithmetic and not in binary64.", "quantifier": "all arrays of storable numbers, every arithmetic that meets the contract (any order of summation), both tags, all remaining arguments", "why_tests_cant": "Only records with values beyond 1e154 overflow; a suite that compares with numpy gets the same empty result on both sides.", "anchors": ["proadv/filtration/detection/acceleration.py:acceleration_thresholding", "proadv/filtration/detection/pollution.py:pollution_rate", "proadv/statistics/spread.py:std"]}
{"id": "C259", "title": "How min, max and mode combine and transform", "statement": "min succeeds exactly when the items are numbers without NaN and not empty, and r is its result exactly when r is a least item; likewise max. Both depend on the items as a set: order and repetition change neither the result nor the error. min of two non-empty recordings joined succeeds exactly when it does on each, with the smaller of the two results. max(-x) is -min(x), errors included; min and max of finite data commute with every non-decreasing conversion. mode(x) is (v, c) exactly when v occurs c times, nothing more often and nothing smaller as often; recording everything k times multiplies c by k; mode commutes with every strictly increasing conversion, and with a strictly decreasing one exactly when no other value is as frequent.", "quantifier": "all lists of items including strings, NaN and infinities for min and max; all arrays for mode; all conversions", "why_tests_cant": "These are relations between calls on different inputs of any length; a single expected value cannot express them, and the tie rule of mode only shows under a decreasing conversion.", "anchors": ["proadv/statistics/descriptive.py:min", "proadv/statistics/descriptive.py:max", "proadv/statistics/descriptive.py:mode"]}
{"id": "C260", "title": "Overflow in velocity_correlation and phasespace_thresholding", "statement": "In arithmetic with rounding and overflow: for three records of the same length of at least 3, if the standard deviation of a centred component is an infinity or NaN, velocity_correlation raises ValueError. If the standard deviations of a record and of both its derivatives are infinities or NaN, phasespace_thresholding returns no index. The standard deviation of finite samples is an infinity or NaN whenever their exact variance exceeds the largest float by more than the rounding error. Witnesses in binary64: velocity_correlation raises for u = 0, 0, 0, 2^602 and any v, w; phasespace_thresholding does not flag the spike in 0, 0, 0, 0, 2^602, 0, 0, 0.", "quantifier": "all records, with infinities and NaN allowed; every arithmetic whose rounding keeps signs and 0", "why_tests_cant": "Both depend on how infinities and NaN pass through two square roots, two divisions and the axes of an ellipse; which of them comes out depends on the data and on the order of summation.", "anchors": ["proadv/filtration/detection/correlation.py:velocity_correlation", "proadv/filtration/detection/phasespace.py:phasespace_thresholding"]}
{"id": "C261", "title": "mean_value and median_value with rounding, underflow and overflow", "statement": "On a non-empty float array of finite samples with in-range spikes (negative ones count from the end), mean_value and median_value succeed, keep all other samples and write one value into all spikes. For mean_value: if that value is a number it is within ((1+u)^(n+1) - 1) avg|x| + eta of the exact mean, and it is a number when (1+u)^(n+1) sum|x| + eta is at most the largest float. For median_value: with an odd number of samples it is the middle sample, unrounded and never overflowing; with an even number it is an infinity of the right sign when the sum of the two middle samples overflows, and otherwise a number within ((1+u)^2 - 1)|m| + eta of the exact median m. Binary64 witnesses: two samples 2^1023 make mean_value write infinity; the median of four samples, three of them 2^1023, is infinite, of three samples it is 2^1023.", "quantifier": "all arrays of storable numbers of any length, all lists of in-range spikes, every arithmetic that meets the contract (any order of summation)", "why_tests_cant": "Overflow of an intermediate sum shows only near the largest float and depends on the parity of the length; error bounds are inequalities over all data.", "anchors": ["proadv/filtration/replacement/replacements.py:mean_value", "proadv/filtration/replacement/replacements.py:median_value", "proadv/statistics/descriptive.py:median"]}
{"id": "C262", "title": "Overflow in spherical_phasespace_thresholding", "statement": "In arithmetic with rounding and overflow: _spike_indices flags nothing when one of its three coefficients is an infinity or NaN, whatever the points. spherical_phasespace_thresholding returns no index when the standard deviation of one rotated coordinate is an infinity or NaN, and when the sum of the products of centred samples and derivatives is NaN, which happens when two of them overflow with opposite signs. Witness in binary64: the spike in 0, 0, 0, 0, 2^603, 0, 0, 0 is not flagged, in any iteration and with any previous mean.", "quantifier": "all records, with infinities and NaN allowed, all points and coefficients; every arithmetic whose rounding keeps signs and 0", "why_tests_cant": "Which coefficient overflows, and whether to infinity or NaN, depends on the data and the order of summation; the claim covers all combinations.", "anchors": ["proadv/filtration/detection/spherical.py:spherical_phasespace_thresholding", "proadv/filtration/detection/spherical.py:_spike_indices", "proadv/filtration/detection/spherical.py:_parameters"]}
{"id": "C263", "title": "Overflow in the example programs", "statement": "In arithmetic with rounding and overflow: phase-space.py stops in its first round and returns the data unchanged when, for each component minus its computed mean, the standard deviations of the component and of its two derivatives are infinities or NaN. phase-space-3d.py does the same when for each component the sum of the products of centred samples and slopes is NaN. acceleration.py does the same when the standard deviation of each component minus its mean is an infinity or NaN. correlation.py raises ValueError, for components of one length of at least 3, when the standard deviation of one of them, centred twice, is an infinity or NaN. Witness in binary64: with 0, 0, 0, 0, 2^603, 0, 0, 0 as every component the first three programs return the spike and the last one raises.", "quantifier": "all data sets of three components, with infinities and NaN allowed; every arithmetic whose rounding keeps signs and 0", "why_tests_cant": "The programs loop until nothing is detected, so a detector silenced by overflow looks like success; no sample shows for which data that happens.", "anchors": ["examples/filtration/phase-space.py:main", "examples/filtration/phase-space-3d.py:main", "examples/filtration/acceleration.py:main", "examples/filtration/correlation.py:main"]}
{"id": "C264", "title": "The frequency transforms keep stability and instability of any filter", "statement": "For every filter, not only Butterworth ones: low_to_low and low_to_high with a positive frequency, and low_to_band and low_to_stop with a nonzero centre and a positive width, return a filter with all poles in the open left half plane exactly when they are given one (no pole at 0 for low_to_high and low_to_stop). bilinear with a positive rate returns poles inside the unit circle exactly when the analog poles are in the left half plane (no pole at twice the rate). With centre 0 low_to_band always returns a pole at 0, an unstable filter. Two low_to_low in a row are one with the product of the frequencies; low_to_high undoes itself on filters with as many zeros as poles, none at 0, and a real quotient of their products.", "quantifier": "all lists of zeros and poles, all gains and parameters; every choice of complex square root", "why_tests_cant": "The claim is an equivalence over all pole positions; tests sample a few stable filters and never the unstable side.", "anchors": ["proadv/statistics/signal/butter.py:low_to_low", "proadv/statistics/signal/butter.py:low_to_high", "proadv/statistics/signal/butter.py:low_to_band", "proadv/statistics/signal/butter.py:low_to_stop", "proadv/statistics/signal/butter.py:bilinear", "proadv/statistics/signal/butter.py:_catenate", "proadv/statistics/signal/butter.py:_relative_scale"]}
{"id": "C265", "title": "The frequency transforms keep real filters real and lose the gain of others", "statement": "If zeros and poles come in conjugate pairs, with multiplicity, so do those returned by low_to_low, low_to_high, low_to_band, low_to_stop and bilinear, for all parameters (no root at 0 for low_to_high and low_to_stop, none at twice the rate for bilinear). Hence for proper filters of this kind, without a condition on the gain, low_to_high, low_to_stop and bilinear substitute a/s, b s/(s^2 + a^2) and 2 a (z-1)/(z+1) in the transfer function (no zero or pole at 0, resp. at 2a). Other filters lose gain silently: with one zero at i t, t not 0, and one pole at -c, c > 0, low_to_high returns gain 0, a response of 0 everywhere.", "quantifier": "all lists of zeros and poles, all gains and parameters; every choice of complex square root", "why_tests_cant": "Pairing with multiplicity through a multivalued square root is a statement about all root configurations.", "anchors": ["proadv/statistics/signal/butter.py:low_to_low", "proadv/statistics/signal/butter.py:low_to_high", "proadv/statistics/signal/butter.py:low_to_band", "proadv/statistics/signal/butter.py:low_to_stop", "proadv/statistics/signal/butter.py:bilinear", "proadv/statistics/signal/butter.py:_catenate"]}
{"id": "C266", "title": "How the frequency transforms of filters compose", "statement": "For every filter, as an equality of the returned zeros, poles and gain, in order, or of the exception: low_to_high(b) after low_to_low(a) is low_to_high(b/a); low_to_low(b) after low_to_high(a) is low_to_high(b a); low_to_band(pc, pw) after low_to_low(a) is low_to_band(pc, a pw); low_to_stop(pc, pw) after low_to_low(a) is low_to_stop(pc, pw/a); bilinear at rate a sr after low_to_low(a) is bilinear at rate sr. low_to_stop(pc, pw) gives the poles and gain of low_to_band(pc, pw) after low_to_high(1), and the same zeros up to order. a is not 0 where it divides; no root at 0 for low_to_high and low_to_stop, none at 2 sr for bilinear.", "quantifier": "all lists of zeros and poles, proper or not, all gains and parameters, every function in place of the complex square root", "why_tests_cant": "Equalities between two call sequences over all filters; the gain corrections must cancel for every difference of the counts.", "anchors": ["proadv/statistics/signal/butter.py:low_to_low", "proadv/statistics/signal/butter.py:low_to_high", "proadv/statistics/signal/butter.py:low_to_band", "proadv/statistics/signal/butter.py:low_to_stop", "proadv/statistics/signal/butter.py:bilinear", "proadv/statistics/signal/butter.py:_relative_scale", "proadv/statistics/signal/butter.py:_catenate"]}
