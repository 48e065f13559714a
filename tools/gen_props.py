#!/usr/bin/env python3
"""Writes /verif/properties.jsonl.  P(id,title,statement,quantifier,why,anchors)."""
import json, os
OUT = os.path.join(os.path.dirname(os.path.dirname(os.path.abspath(__file__))), "properties.jsonl")
L = []
def P(i, title, statement, quantifier, why, *anchors):
    L.append(dict(id=i, title=title, statement=statement, quantifier=quantifier,
                  why_tests_cant=why, anchors=list(anchors)))

P("C01", "Every observation point is computed exactly once",
  "For every number of observation points No and every number of workers, the index ranges handed to the workers are disjoint, in increasing order and cover 0..No-1 exactly, so each output column is computed by exactly one worker and none is skipped.",
  "all No >= 0 and all worker counts >= 1", "the rounding of k*No/n has to be right for every pair (No, n); tests sample a few pairs on one machine",
  "src/dreamrect.cc: Rect::dreamrect", "src/dreamcirc.cc", "src/dream_arr_rect.cc", "extra_src/das.cc: DAS::das", "extra_src/fftconv_p.cc")
P("C02", "Worker count is clamped",
  "The number of workers is at least 1, never more than the hardware concurrency (unless that is reported as 0), never more than DREAM_NUM_THREADS when that is set to a positive number, never more than the number of columns when there are any; setting DREAM_NUM_THREADS=0 gives one worker; and whenever there is at least one column no worker gets an empty range.",
  "all hardware concurrency values, environment settings and column counts", "depends on the machine and environment the test runs on",
  "src/dreamrect.cc: Rect::dreamrect", "extra_src/das.cc: DAS::das")
P("C03", "Impulse responses do not depend on thread schedule or thread count",
  "When no worker reports out of bounds under error level 'stop' and the call is not aborted, the output matrix is, bit for bit, the same for every interleaving of the workers and for every worker count: column n holds the single-point response for observation point n.",
  "all interleavings of the workers' steps, all worker counts, all inputs, every floating point arithmetic", "a data race shows up only in some schedules",
  "src/dreamrect.cc: smp_dream_rect, dreamrect", "src/dreamcirc.cc", "src/dreamline.cc", "src/dreamsphere.cc", "src/dreamcylind.cc", "src/dream_arr_rect.cc", "src/dream_arr_circ.cc", "src/dream_arr_cylind.cc", "src/dream_arr_annu.cc")
P("C04", "Out of bounds under 'stop' always fails the call, and only then",
  "With error level 'stop' and no abort: if the response of some observation point falls outside the output, then in every schedule the run flag is cleared when the workers have joined (so the wrapper raises an error), and if no point is out of bounds the flag is still set and no error is raised.",
  "all schedules, all worker counts, all inputs", "needs every order in which a failing worker can overtake the others",
  "src/dreamrect.cc: smp_dream_rect", "mex/mex_dreamrect.cc", "python/src/py_dreamrect.cc")
P("C05", "The returned error code reports the workers' errors exactly when there are at least two workers",
  "With two or more workers, the code returned by the rect/circ/line/focused/cylindrical/array drivers is 'none' iff no processed point had an error, and out_of_bounds / warn / ignore according to the error level otherwise. With one worker the returned code is always 'none', whatever happened (so warnings are lost and an out-of-bounds stop is reported as CTRL-C).",
  "all schedules, worker counts, inputs", "single- and multi-worker paths differ; tests run on one configuration",
  "src/dreamrect.cc: Rect::dreamrect join loop", "mex/mex_dreamrect.cc")
P("C06", "Spherical transducer driver drops warnings",
  "The spherical driver's join loop returns out_of_bounds iff some worker ended with out_of_bounds and returns 'none' when workers only had warn/ignore events, for every schedule.",
  "all schedules, worker counts, inputs", "needs all schedules; the path only differs for warn/ignore", "src/dreamsphere.cc: Sphere::dreamsphere join loop")
P("C07", "Abort leaves only whole columns",
  "If the run flag is cleared from outside (CTRL-C) at any moment, then when the workers have returned every output column is either exactly as it was before the call or exactly the full single-point response; each worker computes at most one further column after the flag is cleared; and the wrapper raises an error.",
  "all abort instants, schedules, worker counts", "crash/abort points cannot be enumerated by tests",
  "src/dreamrect.cc: abort, smp_dream_rect, is_running", "mex/mex_dreamrect.cc")
P("C08", "Every worker terminates after finitely many steps",
  "In every schedule the workers together take a bounded number of steps, so a fair scheduler always reaches the join; no deadlock is possible (every unfinished worker can always step).",
  "all schedules", "liveness over infinite schedules", "src/dreamrect.cc: smp_dream_rect")
P("C09", "SIR kernels never write outside their own column",
  "For every input whatsoever (including NaN, infinities and nonsense geometry) and every floating point arithmetic, the rectangular, circular, line, spherical, cylindrical and focused kernels write only to samples 0..nt-1 of their own column; every access they perform is in bounds.",
  "all inputs, every arithmetic", "bounds must hold for arbitrary doubles", "src/dreamrect.cc: dreamrect_serial", "src/dreamcirc.cc", "src/dreamline.cc", "src/dreamsphere.cc", "src/dreamcylind.cc", "src/dreamrect_f.cc", "src/dreamcirc_f.cc")
P("C10", "Error level semantics of the SIR kernels",
  "A kernel returns 'none' iff every surface sample's arrival index is in 0..nt-1; otherwise it returns the code belonging to the error level. With 'ignore' and 'warn' all in-range contributions are added and out-of-range ones dropped; with 'stop' exactly the contributions before the first out-of-range one have been added.",
  "all inputs, all four error levels, every arithmetic", "must hold for every sequence of in/out of range surface samples",
  "src/dreamrect.cc: dreamrect_serial", "src/dream_error.cc: dream_out_of_bounds_err")
P("C11", "Rectangular SIR is the discretised Rayleigh integral",
  "In exact arithmetic, sample i of the rectangular response is the sum, over the centres of a dx-by-dy grid covering the aperture, of v*dx*dy/(2*pi*r)*1000/dt for those grid points whose rounded arrival time (r*1000/cp - delay)/dt equals i.",
  "all real inputs with dx, dy > 0", "a statement about sums of unbounded size for all geometries", "src/dreamrect.cc: dreamrect_serial")
P("C12", "Discretisation loops terminate exactly when the step is positive",
  "In exact arithmetic the surface sampling loops finish for all dx, dy > 0, for the rectangle having visited floor(a/dx+1/2) x floor(b/dy+1/2) points; for every transducer they do not end exactly when there is a first row (and column) and the step is zero or negative. The arguments are not checked for that: a call of a single-element or array function with such steps and an error level other than 'stop' never returns, whatever the number of workers and the schedule, and CTRL-C does not stop it.",
  "all transducers, all real dimensions, dx, dy, all schedules with any number of interruptions", "non-termination cannot be tested", "src/dreamrect.cc: dreamrect_serial", "src/dreamcirc.cc")
P("C13", "Sign and scaling of responses",
  "With v, weight, dx, dy, dt >= 0 responses accumulated into a nonnegative buffer stay nonnegative; in exact arithmetic responses are linear in the normal velocity v.",
  "all inputs; sign also for every monotonically rounded arithmetic", "universally quantified inequality", "src/dreamrect.cc", "src/dreamcirc.cc")
P("C14", "Delay shifts the response",
  "In exact arithmetic, increasing the delay by an even number of samples shifts the response by that many samples; for an odd number of samples this can fail, because arrival times exactly half way between samples are rounded to even.",
  "all real inputs and all even shifts", "ties occur on a measure-zero set of inputs", "src/dreamrect.cc: dreamrect_serial (std::rint)")
P("C15", "Array response is the weighted, delayed superposition of element responses",
  "Without out-of-bounds stop, the array response equals the initial buffer plus the sum over elements of that element's response at the observation point translated by the element position, with delay reduced by focusing and steering delay and scaled by the apodization weight.",
  "all element counts, positions, focusing/steering/apodization settings", "induction over the number of elements", "src/dream_arr_rect.cc: dream_arr_rect_serial", "src/dream_arr_circ.cc", "src/dream_arr_cylind.cc")
P("C16", "Array error code reports only the last element unless 'stop'",
  "With 'stop' the array kernel returns out_of_bounds iff some element is out of bounds; with 'warn' or 'ignore' the code is that of the last element alone, so earlier events are lost.",
  "all element counts and inputs", "depends on which elements are out of range", "src/dream_arr_rect.cc: dream_arr_rect_serial")
P("C17", "Focusing delays are nonnegative and vanish at the edge",
  "For focusing 'x', 'y', 'xy' with cp > 0 and the aperture dimensions computed from the array grid, every element's focusing delay is >= 0, is 0 for an element at the maximal coordinate and largest for an element at the centre; for 'x+y' the delay of every element can be negative.",
  "all array grids, focal depths and sound speeds; for methods 'x' and 'y' also every monotonically rounded arithmetic", "universally quantified over grids", "src/arr_functions.cc: focusing, max_dim_arr")
P("C18", "Steering delays are nonnegative for nonnegative angles and linear across the array",
  "With aperture dimensions computed from the grid, steering delay is >= 0 for angles in [0,180] deg, <= 0 for angles in [-180,0], zero for method 'off', and differences between elements are (gx1-gx2) sin(theta) 1000/cp.",
  "all grids and angles", "universally quantified", "src/arr_functions.cc: beamsteering")
P("C19", "Apodization weights stay in range",
  "For an element within the aperture (0 <= r <= r_max, r_max > 0) triangle, simply supported, clamped, hann weights are in [0,1], gauss (nonnegative parameter) in (0,1], hamming in [2/23, 1]; all equal their maximum at the centre; raised cosine lies in [p-1,p+1]. User defined weights are used verbatim.",
  "all element positions and parameters", "real-valued domain", "src/arr_functions.cc: apodization")
P("C20", "Aperture dimensions bound every element",
  "max_dim_arr returns x_max and y_max that are attained and bound |gx|, |gy| of every element, and sqrt(gx^2+gy^2) <= r_max for every element.",
  "all grids with at least one element", "induction over the grid", "src/arr_functions.cc: max_dim_arr")
P("C21", "Annular array: superposition index is safe iff the delay is not negative",
  "Adding a ring response with delay index k touches only samples 0..nt-1 when k >= 0 (and drops what is pushed past the end), and writes out of bounds for every negative k with nt > 0; the index used is rint(delay/dt)+1, so even a zero delay shifts the ring response by one sample.",
  "all nt, all delays", "user-defined delays are arbitrary", "src/dream_arr_annu.cc: superpos_annular")
P("C22", "Annular rings are differences of consecutive discs",
  "Each ring's response is the outer disc response minus the inner disc response, so with unit weights and equal delays the array response telescopes; the number of elements is (number of radii+1)/2 and with an even number of radii the last one contributes nothing to the samples (but its error code is the one that is returned).",
  "all numbers of radii", "induction", "src/dream_arr_annu.cc: resp_annular, dream_arr_annu_serial")
P("C23", "Attenuation preserves total area and degenerates to the lossless response",
  "In exact arithmetic the samples of the attenuated contribution sum to the lossless amplitude for every attenuation coefficient, distance and delay, and for alpha = 0 it is exactly one sample of that amplitude at the arrival index.",
  "all lengths, attenuation values, distances", "requires the DFT identity for every length", "src/attenuation.cc: Attenuation::att")
P("C24", "Time domain convolution is the convolution",
  "conv_p's kernel with mode '=' sets the output column to the linear convolution of the two inputs regardless of its previous content, with '+=' adds it and with '-=' subtracts it; it touches exactly samples 0..nx+ny-2.",
  "all lengths nx, ny >= 1 and all data", "all lengths", "extra_src/conv.cc: conv")
P("C25", "FFT convolution equals time domain convolution",
  "In exact arithmetic, the FFT based convolution (zero padding to nx+ny-1, half-spectrum real FFT, product, normalised inverse) equals the time domain convolution in all three modes.",
  "all lengths nx, ny >= 1, all data", "the circular wrap-around has to vanish for every length parity", "extra_src/fftconv.cc: fftconv", "include/fft.h: FFT::fft, FFT::ifft")
P("C26", "sum_fftconv returns the sum of convolutions divided by the FFT length",
  "In exact arithmetic the output for an observation point is (1/(h_len+u_len-1)) times the sum over inputs of the convolutions (normalised twice, as in the pseudo code of the help texts); it therefore equals the plain sum of convolutions, which is how the help texts describe it, only if the FFT length is 1 or the sum is zero. Mode '-=' behaves as '='.",
  "all lengths, inputs, numbers of inputs", "scaling depends on length", "extra_src/fftconv.cc: add_fftconv", "extra_src/mex_sum_fftconv.cc")
P("C27", "Overlap-add equals convolution for matrix B",
  "In exact arithmetic, with 1 <= block_len <= rows(A) and B a matrix (or a single block, or one column per worker), a normal call of fftconv_ola returns in every column the linear convolution of the corresponding columns, independent of block length, scratch contents, schedule and of how columns are split over threads; memory outside the arguments is never accessed.",
  "all sizes, block lengths, thread counts, data", "block boundary arithmetic for every size", "extra_src/mex_fftconv_ola.cc: smp_dream_fftconv_ola")
P("C28", "Overlap-add with vector B reads the wrong column",
  "With B a vector, the first column processed by each worker is right, but every later column processed by the same worker reads its non-final blocks A_M samples too far per preceding column, so results depend on the thread count; whenever there are fewer workers than columns the last column is read past the end of A.",
  "all sizes", "needs a particular combination of columns per thread and block length", "extra_src/mex_fftconv_ola.cc: smp_dream_fftconv_ola (Ap += A_M)")
P("C29", "Column-parallel convolution is schedule independent",
  "conv_p and fftconv_p produce, for every interleaving and thread count, exactly the column-by-column result and never write outside the output matrix.",
  "all schedules, thread counts, sizes", "races", "extra_src/mex_conv_p.cc", "extra_src/fftconv_p.cc")
P("C30", "Delay-and-sum image values",
  "SAFT and TFM image values are the sum over A-scans of the sample at the truncated double-path time index, in-range indices only; every read of the data is inside the data matrix for every geometry; errors are reported as for the SIR kernels.",
  "all geometries, element counts, data, every arithmetic", "all index values", "extra_src/das.cc: das_saft_serial, das_tfm_serial")
P("C31", "TFM reciprocity and SAFT/TFM consistency",
  "In exact arithmetic swapping transmit and receive arrays and transposing the data leaves the TFM image unchanged; SAFT equals TFM restricted to pulse-echo A-scans iff the delay does not matter: SAFT applies the system delay twice, TFM once.",
  "all arrays and data", "universally quantified", "extra_src/das.cc")
P("C32", "RCA imaging reads the element grids correctly only for square arrays",
  "With as many rows as columns the RCA kernels read inside the grids and use the first/last row y and column x as stripe limits; with more columns than rows + a bound they read outside the row grid, with other non-square shapes they use wrong limits.",
  "all row and column counts", "tests use square arrays", "extra_src/das.cc: das_rca_serial_coltx, das_rca_serial_rowtx")
P("C33", "Analytic circular SIR is the fraction of the wave front circle on the piston",
  "In exact arithmetic, for a point at zo >= 0, every sample of circ_sir is 0 before the front reaches the piston plane and otherwise v*cp times the fraction of the circle, cut out of the piston plane by the sphere of radius cp*t around the point, that lies on the piston (one degenerate instant excepted). Hence it is between 0 and v*cp, is v*cp in the plane-wave part, and 0 before the first and after the last arrival; the arc cosine is only evaluated in its domain. For zo < 0 the response starts too early.",
  "all observation points, radii, sampling parameters, thread counts and schedules", "acos domain and geometry must hold for all inputs", "extra_src/circ_sir.cc", "extra_src/mex_circ_sir.cc")
P("C34", "Analytic rectangular SIR: right outside the aperture, wrong sub-rectangle inside",
  "In exact arithmetic, for a point at zo >= 0 whose projection is outside the aperture, every sample of rect_sir is 0 before the front reaches the aperture plane and otherwise cp times the fraction of the circle cut out by the sphere of radius cp*t that lies on the aperture. Inside the aperture the fourth sub-rectangle is the wrong one: the result is right iff the point is on the x axis or above the short side, and otherwise too small. Every sample is between 0 and cp and zero outside the response window. The normal velocity v is ignored.",
  "all observation points, sizes, sampling parameters, thread counts and schedules", "tests on axis cannot see it; the geometry must hold for all points", "extra_src/rect_sir.cc", "opencl/rect_sir.cl")
P("C35", "Argument checks accept exactly the documented shapes",
  "Observation point, geometry, sampling and material argument checks accept an argument iff it has the documented shape; error level, focusing, steering and apodization strings map one to one to methods and unknown strings are rejected.",
  "all shapes and strings", "all strings", "include/arg_parser.h")
P("C36", "Delay argument check admits an unsafe case",
  "A delay argument is accepted iff it has length 0, 1 or No (as number of entries); accepted with length 1 or No the kernels only read inside it; an empty delay is accepted and then read out of bounds when No >= 1.",
  "all shapes", "corner case", "include/arg_parser.h: check_delay", "mex/mex_dreamrect.cc")
P("C37", "Annular radii check never rejects an even number of radii given as a vector",
  "check_array_annu accepts every vector (row or column) whatever its length, so the documented 'odd number' requirement is not enforced.",
  "all shapes", "all lengths", "include/arg_parser.h: check_array_annu")
P("C38", "Output matrix is cleared before accumulation",
  "A matrix object built over caller memory clears exactly len*No entries; one that owns its memory and is built with (len,No) clears only the first len entries.",
  "all sizes", "size-dependent", "include/dream.h: SIRData")
P("C39", "copy_p / add_p are safe only when B has as many columns as A",
  "For accepted arguments the workers cover all columns of A: if B has as many columns as A the addressed block becomes B (or is incremented by B) and nothing else changes; if B has fewer columns, memory outside B is read.",
  "all sizes and index ranges", "tests use matching sizes", "extra_src/oct_copy_p.cc", "extra_src/mex_copy_p.cc", "extra_src/oct_add_p.cc")
P("C40", "GPU kernels agree with the CPU kernels under 'ignore'",
  "For each observation point the OpenCL rectangular and circular kernels compute the same column as the CPU kernel run on a zeroed column with error level 'ignore', in every arithmetic; SAFT/TFM likewise.",
  "all inputs, every arithmetic shared by both", "no GPU in CI", "opencl/dreamrect.cl", "opencl/dreamcirc.cl", "opencl/das_double.cl")
P("C41", "Wisdom string test is inverted",
  "is_wisdom(s) is true exactly when s differs from the literal 'fftw_wisdom', so every string except that one is accepted as wisdom.",
  "all strings", "all strings", "include/fft.h: FFT::is_wisdom")
P("C42", "User interface outcome is a function of the responses",
  "For the MATLAB/Octave/Python wrapper on top of the driver: with >= 2 workers the call raises 'out of bounds' iff 'stop' and some point is out of bounds, warns iff 'warn' and some point is out of bounds; with one worker it never warns and reports an out-of-bounds stop as 'CTRL-C pressed'. For dreamsphere the same without any warning. (The Julia wrapper of dreamcylind, which never warns either, is in C82.)",
  "all inputs, schedules", "combines wrapper, driver and kernel", "mex/mex_dreamrect.cc", "python/src/py_dreamrect.cc", "src/dreamrect.cc")

P("C43", "dream_att columns have unit area and start one sample after the lossless arrival",
  "In exact arithmetic every column computed by dream_att sums to 1 whatever the distance, delay and attenuation, i.e. a pulse arriving outside the time window is wrapped around and not reported; for alpha = 0 the column is a unit pulse at (truncated arrival index + 1) modulo the length.",
  "all observation points, delays, lengths, attenuation values", "requires the DFT identity for every length", "mex/mex_dream_att.cc: mexFunction", "src/attenuation.cc: Attenuation::att")
P("C44", "sum_fftconv accepts a row vector of inputs and then reads outside it",
  "When the input matrix U of sum_fftconv is a row vector (1 x L, L > 1) the size check is passed, the vector length L is then used as the number of rows, and the workers read memory past the end of U in every run, for every L > 1 and every observation point.",
  "all sizes L > 1, all data, schedules", "corner case of the size check", "extra_src/mex_sum_fftconv.cc", "extra_src/fftconv.cc: add_fftconv")

P("C45", "fftconv_ola corner cases: zero block length, in-place modes",
  "fftconv_ola accepts block_len = 0 and then never returns; its in-place mode '=' adds to the output instead of replacing it; its in-place modes '+=' and '-=' add the contents of uninitialised memory to the output, and add each block together with all blocks before it (even with cleared memory the result is wrong as soon as there are two blocks); exactly what is added is stated.",
  "all sizes, data, schedules", "depends on uninitialised memory and non-termination", "extra_src/mex_fftconv_ola.cc", "extra_src/oct_fftconv_ola.cc")
P("C46", "Sampled circular SIR is the mean over the sampling interval",
  "In exact arithmetic, for a point at zo >= 0, sample it of scirc_sir is the mean over the sampling interval of length dt around its time (cut off at time 0) of v*cp during the plane-wave window (points above the piston) and of the trapezoidal rule with the requested number of intervals for the arc fraction between the nearest and the farthest rim arrival. Hence it is between 0 and v*cp and zero away from the response window.",
  "all observation points, radii, sampling parameters, integration lengths, thread counts and schedules", "a dozen overlapping cases of interval position against the two windows", "extra_src/scirc_sir.cc", "extra_src/mex_scirc_sir.cc")


P("C47", "User defined apodization weights of the wrong length",
  "If the number of user defined weights differs from the number of elements, the Octave, Python and Julia interfaces refuse the call without any message, and the MATLAB interface accepts it and computes with all weights zero, so every in-bounds response is zero.",
  "all shapes and values of the arguments, all languages", "needs all lengths and the MATLAB control flow after the failed check",
  "include/arg_parser.h:parse_apod_args", "include/arg_parser_python.h:parse_apod_args", "mex/mex_dream_arr_rect.cc")
P("C48", "Window parameter has no effect in Python and Julia",
  "For every apodization method the Python and Julia array functions ignore the window parameter and use 0, so a Gaussian window has weight 1 for all elements.",
  "all arguments", "must hold for every value of the parameter",
  "include/arg_parser_python.h:parse_apod_args", "include/arg_parser_julia.h:parse_apod_args")
P("C49", "One-dimensional numpy arrays are undefined behaviour",
  "Every shape check of the Python interface reads the second dimension of the argument, so any one-dimensional array argument leads to a read outside the shape vector instead of an error message.",
  "all one-dimensional arguments of all Python functions with the common argument checks", "undefined behaviour may look fine in a test",
  "include/arg_parser_python.h:get_n", "include/arg_parser_python.h:check_obs_points")
P("C50", "MATLAB ignores the error level when a compute device is given",
  "dreamrect and dreamcirc called with seven arguments run with error level 'stop' whatever the sixth argument is, and never complain about it.",
  "all argument values", "universally quantified over the ignored argument",
  "mex/mex_dreamrect.cc", "mex/mex_dreamcirc.cc")
P("C51", "Annular array interface: number of radii and of elements",
  "The annular array function calls the driver exactly for arguments that pass the checks; MATLAB and Octave pass all radii and vectors for (k+1)/2 elements; Python uses only the first radius of a row vector; Python and Julia want one user defined delay for each radius instead of each element.",
  "all shapes of all arguments", "all lengths and orientations",
  "mex/mex_dream_arr_annu.cc", "oct/oct_dream_arr_annu.cc", "python/src/py_dream_arr_annu.cc", "julia/src/jl_dream_arr_annu.cc")

P("C52", "Optional arguments of the convolution functions; the mode is ignored when wisdom is given",
  "fftconv_p understands each documented form (no option, wisdom, in-place matrix, in-place matrix with '=', '+=', '-=' or wisdom) as documented, refuses an in-place matrix of the wrong size, and stores accordingly in every complete run; but with both a mode and a wisdom string the mode argument is ignored, so fftconv_p(A,B,Y,'+=',wisdom) replaces Y instead of adding; a text in place of the mode that is not a mode is taken for wisdom. fftconv_ola shares this; sum_fftconv has no mode argument, and with an in-place matrix it replaces the contents in MATLAB but adds to them in Octave; conv_p refuses unknown modes but ignores a non-text 4th argument.",
  "all option lists, texts, wisdom importers, inputs and schedules", "all texts and schedules", "extra_src/mex_fftconv_p.cc", "extra_src/oct_fftconv_p.cc", "extra_src/mex_fftconv_ola.cc", "extra_src/mex_sum_fftconv.cc", "extra_src/oct_sum_fftconv.cc", "extra_src/mex_conv_p.cc")

P("C53", "Every lossless response is the discretised Rayleigh integral over the transducer surface",
  "In exact arithmetic, for the rectangle, disc, strip, spherical cap, cylindrical segment and the focused rectangle and disc, output sample i is the sum over the cells of the surface whose arrival sample is i of v*area/(2 pi r)/dt*1000 (times the element weight), where the positions are those of the stated surface in space and r the distance to the observation point; an array response is the weighted sum of the element responses at their positions, each with its focusing and steering delay, and an annular array response is the sum over the rings of the weighted difference of outer and inner disc response, delayed by the rounded focusing delay plus one sample.",
  "all geometries with positive steps, observation points, delays, output lengths, thread counts and schedules", "an equality over all real parameters; the sweep loops test accumulated floating point coordinates", "src/dreamcirc.cc", "src/dreamline.cc", "src/dreamsphere.cc", "src/dreamcylind.cc", "src/dreamrect_f.cc", "src/dreamcirc_f.cc", "src/dream_arr_rect.cc")
P("C54", "Focused transducers focus",
  "With a focus method, the contributions of all cells of a focused disc or rectangle arrive at the same sample at the focal point on the axis (method 'xy'), so the response there is a single spike; with 'x' or 'y' the cells of a row or column arrive at the focal line at the same sample; likewise for the spherical cap at its centre of curvature and the cylinder on its axis; the focusing delays are never negative inside the aperture; the elements of a focused array arrive simultaneously at the focus.",
  "all geometries, focal depths, sound speeds", "universally quantified real identity", "src/dreamcirc_f.cc: focus_delay_circ", "src/dreamrect_f.cc: focus_delay_rect", "src/dreamsphere.cc", "src/dreamcylind.cc", "src/arr_functions.cc:focusing")

P("C55", "Calls of das do not influence each other",
  "das keeps an object between calls. Whatever calls (accepted, refused, failed) came before, in any number and with any sizes, methods, devices and precisions, a double precision call of das uses exactly its own arguments, on the device it asked for; its outcome is the one it has in a new session (up to whether an OpenCL set-up is needed and succeeds).",
  "all histories of calls, all arguments, all four language interfaces, builds with and without OpenCL", "quantifies over all call histories",
  "extra_src/mex_das.cc", "extra_src/oct_das.cc", "python/include/py_das.hpp", "julia/include/jl_das.hpp", "include/das.h: das_setup_has_changed")
P("C56", "Single precision das in MATLAB and Octave always goes through a null pointer",
  "After any history of calls, an accepted single precision call of das in MATLAB or Octave calls a member function of the (absent) double precision object, which is undefined behaviour, unless the OpenCL set-up fails before.",
  "all histories, all single precision arguments", "undefined behaviour that may look fine in a test", "extra_src/mex_das.cc", "extra_src/oct_das.cc")
P("C57", "Accepted arguments and compute device of das",
  "Arguments in one of the documented forms are accepted. In MATLAB and Octave the device argument decides between CPU and GPU only when exactly ten arguments are given; with all eleven it is ignored and the CPU is used. In Python and Julia 'gpu' is always refused and every other text means the CPU. A method that is none of the documented names is refused, in MATLAB and Octave with a message. A grid (that is looked at) without three columns is refused with a message in every environment, and so is, in MATLAB and Octave, a sampling interval or a sound speed that is not a scalar and a call with mixed precisions or more than eleven arguments.",
  "all arguments and texts", "all argument combinations", "extra_src/mex_das.cc", "extra_src/oct_das.cc", "python/include/py_das.hpp", "julia/include/jl_das.hpp")
P("C58", "das does not check the number of data columns",
  "If the data have at least as many columns as there are A-scans for the method, no schedule of the workers reads outside the arguments; if the data end before a sample some image point needs, the call is accepted all the same and (at levels other than 'stop') no run of it completes without an out-of-bounds read.",
  "all sizes, grids, data, thread counts and schedules", "out-of-bounds reads may look fine in a test", "extra_src/mex_das.cc", "extra_src/das.cc", "python/include/py_das.hpp")
P("C59", "Scalar delay of das in Octave is read after its memory is gone",
  "In Octave the pointer to the delay is taken from a block-local matrix; if the delay is not stored as a full matrix (for example a scalar), every image point is computed by reading memory that no longer belongs to it.",
  "all arguments, thread counts, schedules", "undefined behaviour that may look fine in a test", "extra_src/oct_das.cc")

P("C60", "das_uni covers every point of the image grid exactly once",
  "The work-items of das_uni correspond one to one to the image points lo + i*step <= hi of the three given intervals, y running fastest, then z, then x; the number of points along an axis is exactly the number of such i, and an interval that runs backwards has none; host and device agree on the numbers.",
  "all grids, all point numbers, all arithmetics (exact arithmetic for the number of points)", "all grid sizes and roundings", "opencl/das_uni_double.cl", "include/das_uni.h")
P("C61", "Image of das_uni",
  "In exact arithmetic, for a number of points that is a multiple of 64 and every schedule of the device: entry b + Ny*(c + Nz*a) of the image is the sum over all transmit/receive pairs (for SAFT all elements) of the data sample at the travel time element-point-element (plus delay), with the row-column distances for row-column arrays; and it equals the image that any complete run of the threaded function das computes when given the same elements and points one by one.",
  "all geometries, methods, data, delays, schedules of the device and of the threads", "equality of two different programs for all inputs", "opencl/das_uni_double.cl", "opencl/cl_das_uni.cc", "extra_src/das.cc")
P("C62", "SAFT with an empty receive array in das_uni is undefined",
  "An accepted call of das_uni with an empty receive array, the documented form for SAFT, converts 0/0 + 1 to an integer, which is undefined, whatever was called before; a given receive array is not used by SAFT.",
  "all call histories and arguments", "undefined behaviour that may look fine in a test", "extra_src/mex_das_uni.cc", "extra_src/oct_das_uni.cc", "include/das_uni.h: init_opencl, das_setup_has_changed")
P("C63", "MATLAB's das_uni does not check the rows of the grid matrix",
  "With fewer than three rows the grid matrix is read beyond its end; with more than three the first nine entries by columns are taken for the 3 by 3 matrix, so the axes are mixed up. Octave refuses both.",
  "all arguments and histories", "out-of-bounds reads may look fine in a test", "extra_src/mex_das_uni.cc", "extra_src/oct_das_uni.cc")
P("C64", "Calls of das_uni do not influence each other and compute what they ask for",
  "das_uni keeps an object between calls. While OpenCL works, the outcome of a call is the one it has in a new session, whatever calls came before; documented arguments are accepted, and what is launched are exactly the call's own geometry, data, sampling, sound speed and first delay over all its image points. Fewer data columns than pairs of elements are not noticed: the data are read beyond their end. If the number of image points is no multiple of 64 the image is uninitialised device memory.",
  "all histories of calls, all arguments, MATLAB and Octave", "quantifies over all call histories", "extra_src/mex_das_uni.cc", "extra_src/oct_das_uni.cc", "include/das_uni.h", "opencl/cl_das_uni.cc")
P("C65", "Absorption law of dream_att and of attenuated responses",
  "In exact arithmetic the spectrum of the absorption response at frequency f MHz is the pure-delay phase times exp(-loss) with loss in neper proportional to alpha, f and distance such that alpha = 1 means 1 dB per cm per MHz (with the constant 8.686 dB per neper), times the dispersive phase that belongs to it; no frequency is amplified and a longer path never has less loss.",
  "all distances, absorptions, frequencies, response lengths, sampling intervals", "all real parameters", "src/attenuation.cc", "mex/mex_dream_att.cc", "oct/oct_dream_att.cc")
P("C66", "rect_sir on the GPU agrees with the CPU for one common delay and a multiple of 64 points",
  "With one delay for all points and a number of points that is a multiple of 64, every sample of rect_sir with the 'gpu' device is the one every complete CPU run gives, whatever the device's schedule and its buffer held, except for the sample taken exactly when the wave front is in the aperture plane at a point over an edge line, where the CPU divides zero by zero and the GPU leaves the contribution out. With several delays only the first is used; with another number of points the kernel does not run and the result is uninitialised memory.",
  "all points, sizes, delays, sampling, device schedules, CPU thread counts and schedules", "quantifies over all schedules and inputs", "opencl/rect_sir.cl", "opencl/cl_rect_sir.cc", "extra_src/oct_rect_sir.cc", "extra_src/rect_sir.cc")

P("C67", "the MATLAB and Octave functions circ_sir, scirc_sir and rect_sir check their arguments and start the meant computation",
  "circ_sir, scirc_sir and rect_sir called from MATLAB or Octave start a computation exactly when the points are an N by 3 matrix, the geometry vector has the length of the aperture, the sampling vector two entries, there are no delays, one or one per point, the medium vector has one entry and the last argument is the documented one; it is then the computation meant by these arguments (on the GPU exactly when asked for and built with it). Other calls return with an error message; undefined behaviour occurs at most when the response length or the number of intervals is no number of the index type. With at least one delay the started computation is safe and terminates under every schedule; an empty delay is accepted and read out of bounds. Arguments in the order of the Octave synopsis of circ_sir and scirc_sir (delay before sampling vector) are refused, or, for two points with two delays, accepted with delays and sampling parameters exchanged; the five-argument synopsis of scirc_sir is always refused. The result of circ_sir is the analytic response of a circular piston in terms of the arguments.",
  "all matrix arguments, both front ends, all thread counts and schedules", "argument shapes, values and schedules are unbounded", "extra_src/mex_circ_sir.cc", "extra_src/oct_circ_sir.cc", "extra_src/mex_scirc_sir.cc", "extra_src/oct_scirc_sir.cc", "extra_src/mex_rect_sir.cc", "extra_src/oct_rect_sir.cc", "include/arg_parser.h")

P("C68", "dream_apodwin returns the documented window on a periodic grid, and loses user defined weights",
  "dream_apodwin(name, N, par) returns N samples, sample n being the window of that name at the relative distance |1 - 2n/N| from the centre: the window is periodic (samples n and N-n agree, sample 0 is the edge value, sample N/2 the centre), not symmetric; the samples are the weights the array functions give a line array at R, R-2R/N, ..., not those of the centred line array. With 'off' MATLAB returns zeros and Octave uninitialised memory. User defined weights are returned only when the integral part of the first weight equals their number; otherwise Octave refuses them silently and MATLAB returns zeros. Other undocumented arguments are refused; the call is undefined exactly when the second argument is empty or its first entry is no number of the index type.",
  "all names, matrices and window parameters, MATLAB and Octave", "argument shapes and lengths are unbounded; uninitialised memory cannot be observed reliably", "mex/mex_dream_apodwin.cc", "oct/oct_dream_apodwin.cc", "src/arr_functions.cc: apodization", "include/arg_parser.h: parse_apod_args")

P("C69", "dream_att from MATLAB and Octave: accepted arguments, result and 32-bit limits",
  "dream_att starts the absorption computation exactly when the points are an N by 3 matrix, sampling and medium vectors have two entries and there are no delays, one or one per point; other calls return with an error message, and undefined behaviour comes before the computation only from a length that is no number of the index type. For in-range arrival times column n of the result is the absorption response for the distance of point n at the integral part of its travel time plus one: the column adds up to one, is a single wrapped-around one without attenuation, and the amplitude of bin k is the loss of alpha dB/(cm MHz) over the distance. An empty delay or a length of zero is accepted and makes the call undefined, as does a travel time outside the index type (32 bits in Octave, non-negative in MATLAB); in Octave more than 2^31/3 points or 2^31 samples before the last column overflow 32-bit index arithmetic.",
  "all matrix arguments, both front ends", "argument shapes, values and sizes are unbounded", "mex/mex_dream_att.cc", "oct/oct_dream_att.cc", "src/attenuation.cc: att", "include/arg_parser.h")

P("C70", "Python fftconv_p and Julia fftconv_p / conv_p",
  "For two matrices (in Python also one-dimensional arrays, taken as one column) these functions raise an exception exactly if the second is neither a vector nor has as many columns as the first (or both are empty); otherwise every complete run, with any number of threads and any schedule, returns the column-wise linear convolution, whatever the fresh output memory contained. The code violates what a user expects for other inputs: Python silently drops all but the first column of arrays with three or more dimensions (and reads outside them if they are empty), a zero-dimensional array is read out of bounds, an empty operand makes the FFT versions write past their scratch memory (the time-domain version returns zeros), and an interrupted Julia call returns normally with columns of uninitialised memory.",
  "all shapes and contents of both arguments, all initial contents of the output, all thread counts, all schedules, with and without interruption",
  "shapes, schedules and garbage contents are unbounded; a test sees one of each",
  "python/include/py_fftconv_p.hpp: py_fftconv_p", "julia/src/jl_fftconv_p.cc: jl_fftconv_p", "julia/src/jl_conv_p.cc: jl_conv_p", "extra_src/fftconv_p.cc: FFTConvP::run")
P("C71", "Octave dreamrect / dreamcirc with the compute device argument",
  "In an Octave build with OpenCL, documented arguments of dreamrect and dreamcirc run on the GPU exactly if the seventh argument is the text 'gpu'; another text runs the CPU version and a seventh argument that is not text is an error. The code violates what a user expects from the GPU run: whatever the device memory held and in whatever order the work-items ran (point count a multiple of 64), the returned matrix is the CPU response for zero attenuation, the first delay for all points and errors ignored; attenuation, further delays and the error level are silently dropped and the error code is always 0, also where the CPU version ends in an out-of-bounds error. With a point count that is not a multiple of 64 any matrix may be returned, an empty delay is read out of bounds, and 2^31 or more response entries overflow int.",
  "all documented argument lists, all texts, all initial device contents, all work-item orders, all CPU schedules it is compared with",
  "no test machine has every device, and work-item order and device memory contents are not controllable",
  "oct/oct_dreamrect.cc: dreamrect", "oct/oct_dreamcirc.cc: dreamcirc", "opencl/cl_dreamrect.cc: cl_dreamrect", "opencl/cl_dreamcirc.cc: cl_dreamcirc")
P("C72", "The environment variable DREAM_NUM_THREADS",
  "For every text of DREAM_NUM_THREADS: a call throws a C++ exception exactly if the variable is set to a text that holds no number (white space, one sign, digits; also the empty text) or a number of 2^64 or more. Otherwise it uses at least one worker, at most the number of cores and at most one per column; a number that fits the counting type is the documented upper limit. The returned matrix does not depend on the variable. The code violates what a user expects: a negative number means one worker in Octave and Python but is ignored in MATLAB and Julia, the functions that count in 32 bits take the number modulo 2^32, and a setting that yields one worker loses out-of-bounds warnings and turns out-of-bounds errors into reports of CTRL-C.",
  "all texts, all core counts, all numbers of columns, all schedules",
  "the set of texts and machine sizes is unbounded and the effects need particular schedules and machines to show",
  "src/dreamrect.cc: Rect::dreamrect", "extra_src/rect_sir.cc: RectSir::rect_sir", "extra_src/mex_conv_p.cc: mexFunction", "extra_src/fftconv_p.cc: FFTConvP::run")
P("C73", "Rounding errors of conv_p and of delay-and-sum images",
  "In floating point (every operation rounded with relative error at most u and absolute underflow error eta) every finite sample that a complete run of conv_p writes differs from the exact convolution of the stored inputs by at most (1+u)^(n+1) - 1 times the sum of the absolute values of everything added up, plus n (1+u)^n eta, where n is the length of the shorter operand. Every finite image point of das differs from the exact sum of the A-scan samples at the computed indices by at most (1+u)^scans - 1 times the sum of their absolute values. The bounds do not depend on the number of threads or the schedule.",
  "all inputs, sizes, modes, schedules and thread counts, all arithmetics that obey the standard model of rounding",
  "a test can only compare particular inputs with a reference that is itself rounded",
  "extra_src/mex_conv_p.cc: conv", "extra_src/das.cc: das_saft_serial, das_tfm_serial, das_rca_serial_coltx, das_rca_serial_rowtx")
P("C74", "Rounding errors of the impulse responses of flat transducers",
  "In floating point (every operation rounded with relative error at most u <= 1/32, no underflow or overflow on the way) dreamrect, dreamcirc and dreamline without attenuation put the contribution of every cell into a sample whose index differs from the exact arrival time by at most 1/2 plus the effect of 8 roundings (and into the sample the exact arrival time rounds to, unless that time is within the effect of 8 roundings of a half sample), and every finite returned sample differs from the exact Rayleigh sum over the cells that fall into it by at most (1-u)^-13 (1+u)^hits - 1 times the sum of the absolute contributions. This holds for every number of workers and every schedule. A rectangle whose sides are Nx dx and Ny dy exactly is divided into exactly Nx times Ny cells, whose computed centres are within ((1+u)^(N+2) - 1)(3N+1)/2 of a cell width of the exact ones, as long as that bound keeps the rounding of the loop variable below half a cell.",
  "all observation points, parameters and grids without underflow or overflow, all schedules and thread counts, all arithmetics that obey the standard model of rounding",
  "a test can only compare particular inputs with a reference that is itself rounded",
  "src/dreamrect.cc: Rect::dreamrect_serial", "src/dreamcirc.cc: Circ::dreamcirc_serial", "src/dreamline.cc: Line::dreamline_serial")
P("C75", "Data races of the threaded functions",
  "In every reachable state of every schedule, with or without CTRL-C, a worker that is about to read or write the output matrix does so inside a column of its own range, so no two workers ever access the same entry and the matrix is free of data races. The single-element functions, the array functions, annular arrays, das and rect_sir (run flag std::atomic) have no data race at all. The code violates this for circ_sir and scirc_sir (run flag a plain int) and for conv_p, fftconv_p (MATLAB, Octave, Julia), sum_fftconv, fftconv_ola, copy_p and add_p (volatile int): every call with at least one column can reach a state in which a worker reads the flag while the CTRL-C handler writes it, which is undefined behaviour in C++; without signals they have none.",
  "all calls with buffers of the right sizes, all thread counts, all schedules, all points in time at which the signal arrives",
  "a data race shows in a test only by luck, and compilers may turn it into anything",
  "src/dreamrect.cc: running_rect", "extra_src/das.cc: running", "extra_src/mex_circ_sir.cc: running", "extra_src/mex_conv_p.cc: running", "extra_src/mex_copy_p.cc: running", "extra_src/fftconv_p.cc: running_conv")
P("C76", "Signal handlers and CTRL-C over whole sessions",
  "Over sessions of any number of calls, with signals arriving at any moment: (a) conv_p, fftconv_p, sum_fftconv, fftconv_ola, copy_p, add_p, circ_sir and scirc_sir leave every signal handler as they found it, whether interrupted or not, and calls refused before the handlers are installed change nothing; (b) the single-element and array functions (for annular arrays in Python and Julia only) leave their own SIGINT handler installed, so after one such call the host program never sees CTRL-C again, whatever is called later in the session; das and rect_sir do the same with SIGABRT, and a call of conv_p (Octave), fftconv_p, sum_fftconv or fftconv_ola (MATLAB, Octave) refused because of its in-place matrix or wisdom leaves all three handlers behind; (c) a run that starts is not affected by any earlier interruption: the run flag is raised afresh; (d) a signal that arrives before the flag is raised, though its handler is installed, is lost; (e) signals a function does not catch never stop it, so CTRL-C cannot stop das, rect_sir, annular arrays in MATLAB/Octave, or fftconv_p in Python; (f) a caught signal that arrives while the workers run brings the flag down in every run, and the call then raises an error - except in Octave conv_p, sum_fftconv, circ_sir, scirc_sir, rect_sir and Julia conv_p, fftconv_p, which return normally although every column but the first of each worker may be unfinished.",
  "all sessions, all functions and hosts, all signal arrivals, all interleavings of main thread, workers and signals",
  "the effect depends on the moment a signal arrives and on the history of the session; there is no end of histories to test",
  "mex/mex_dreamrect.cc: std::signal", "oct/oct_dream_arr_annu.cc", "extra_src/mex_conv_p.cc: sighandler, running", "extra_src/oct_conv_p.cc", "extra_src/mex_das.cc: std::signal", "extra_src/oct_circ_sir.cc", "extra_src/oct_fftconv_p.cc", "julia/src/jl_conv_p.cc", "src/dreamrect.cc: Rect::abort")
P("C77", "arr_focus_delays computes focusing delays that agree with the library",
  "For any element positions, sound speed and angle: for focal depth >= 0 the delay of each element plus its travel time to the point at depth foc in direction ang is the same for all elements, all delays are nonnegative and the smallest is 0; for negative depth the delays are those of a wave diverging from the point behind the array, again nonnegative with smallest 0. Without steering, passing the delays with focusing method 'ud' gives exactly the response, error code and behaviour that method 'x' gives. As the depth grows the delays tend to those of a plane wave in direction ang, which for 0 <= ang < 90 and an array that starts at -x_max are the library's steering delays. The library's own focusing methods ignore the sign of the focal depth, so they cannot defocus. The delays stay nonnegative under any monotone rounding.",
  "all arrays (any number of elements), all depths, angles |ang|<90, sound speeds, all element kinds, observation points, steering and apodization",
  "equality of responses for all arrays and the limit of growing depth cannot be tested",
  "m_files/arr_focus_delays.m", "src/arr_functions.cc: focusing, beamsteering", "src/dream_arr_rect.cc")
P("C78", "h2o_soundspeed is right in fresh water and wrong in salt water",
  "For all arguments the returned value differs from Del Grosso's formula by three terms: the S^2 P^2 coefficient lost its exponent (the code subtracts 0.1617 and 8 S^2 P^2), S^3 is used for S^2 and T P^3 for T P^2. At atmospheric pressure in fresh water the error is between -0.17 and -0.16 m/s from 0 to 100 degrees; in sea water (30 to 45 ppt, 0 to 40 degrees, 1 to 1000 at) the returned sound speed is below -5000 m/s. One atmosphere in each of the six units is the same pressure to 0.1 per cent; unknown units and a missing unit count as Pascal; capitals do not matter.",
  "all temperatures, pressures, salinities and unit texts in the stated ranges",
  "ranges over real numbers; tests look at fresh water only",
  "m_files/h2o_soundspeed.m")
P("C79", "In-place modes: who sees the result",
  "conv_p, fftconv_p, fftconv_ola, sum_fftconv, copy_p and add_p called with a matrix to be changed store their result in that matrix and in every other variable of the interpreter that shares its memory, and change no other variable, for every number of threads and schedule. The results of conv_p, fftconv_p, copy_p and add_p are the documented ones; with exact transforms fftconv_ola in mode '=' adds the convolution to the old values (C45), and sum_fftconv stores the sum of the convolutions divided by the FFT length (C26), adding it in Octave and replacing the old values in MATLAB. The results are as documented even if an input is stored in the same memory, for fftconv_p and for conv_p with '+=' and '-='. The code violates it for conv_p with '=': if an input shares memory with the third argument, as after y = a, the call leaves zeros in both. In Octave, if the third argument is not a full matrix of doubles (scalar, range, logical, integer, single) conv_p, fftconv_p, fftconv_ola and sum_fftconv write to memory that has been freed: no execution is defined; copy_p and add_p run and silently change nothing.",
  "all matrices, modes, sharing patterns of variables, thread counts and schedules",
  "depends on which variables happen to share memory and on which internal class a value has",
  "extra_src/mex_conv_p.cc: mxGetPr(prhs[2])", "extra_src/oct_conv_p.cc: Ytmp", "extra_src/oct_fftconv_p.cc: Ymat", "extra_src/oct_fftconv_ola.cc: Ytmp", "extra_src/oct_sum_fftconv.cc: Ytmp", "extra_src/oct_copy_p.cc: tmp", "extra_src/conv.cc: conv", "extra_src/fftconv.cc: fftconv")
P("C80", "Responses converge to the Rayleigh integral",
  "In exact arithmetic, weighting the response returned by a transducer function with a signal gives the Rayleigh integral of that signal over the transducer surface, up to an explicit bound: for every signal bounded by K with slope at most L, every observation point at least z from the surface and every output long enough, the error is at most an explicit expression in K, L, z, the dimensions, dx, dy and dt, which tends to zero as dx, dy and dt do. Holds for rectangles and discs, focused or not, lines, cylinders and arrays of elements, for every number of threads and schedule; samples before the first and after the last arrival from the surface are zero. For the spherical cap the limit is the integral weighted with the projected area: the code violates the claim for the true area of the cap, at the focus the pressure stays too small by a fixed amount.",
  "all transducers, dimensions, observation points, signals, step sizes, sampling intervals, output lengths, thread counts and schedules",
  "a limit over step sizes and a bound over all signals",
  "src/dreamrect.cc: dreamrect_serial", "src/dreamcirc.cc: dreamcirc_serial", "src/dreamline.cc: dreamline_serial", "src/dreamsphere.cc: dreamsphere_serial", "src/dreamcylind.cc: dreamcylind_serial", "src/dreamrect_f.cc: dreamrect_f_serial", "src/dreamcirc_f.cc: dreamcirc_f_serial", "src/dream_arr_rect.cc: dream_arr_rect_serial")
P("C81", "Change of units and mirror symmetry",
  "In exact arithmetic, multiplying all lengths and all times of a call by the same factor leaves the output unchanged, for every number of threads and schedule of either call; dividing the sound speed and multiplying the times by a factor divides the response by it. The response at the mirrored observation point is the same if the aperture is a whole number of cells: in x for rectangles, lines and cylinders, in y for all transducers; in every case the responses mirrored in x or y, weighted with a signal, agree up to twice the error of C80. The code violates exact mirror symmetry in x for the disc even if its diameter is a whole number of cells, because the rows are filled from the left.",
  "all transducers, dimensions, observation points, factors, step sizes, thread counts and schedules",
  "relates two calls over all inputs",
  "src/dreamrect.cc: dreamrect_serial", "src/dreamcirc.cc: dreamcirc_serial", "src/dreamcylind.cc: dreamcylind_serial")
P("C82", "Whole calls",
  "A call with documented arguments, from the argument checks through the choice of the number of workers, the threaded driver and the end of the wrapper, has exactly one outcome, whatever the schedule: the matrix whose entry (i, n) is the sum over the elements of the sampled transducer (and over the active elements of the array) of their strength at sample i of observation point n (with losses: spread by the pulse of the attenuation law), with a warning or an error and second output decided by the error level and by whether some contribution falls outside the window. The numbers are the same on every machine and for every value of the environment variable. With two or more workers the answer is the documented one. The code violates the documentation with one worker (message about CTRL-C, no warning, second output zero), for dreamsphere (never a warning, second output zero), for dreamcylind in Julia (never a warning), and for arrays under ignore and warn when only elements other than the last miss the window (no warning, second output zero).",
  "all languages, functions, documented arguments, machines, environment variables, schedules",
  "composes all layers over all inputs and schedules; a test sees one machine and one schedule",
  "src/dreamrect.cc: dreamrect", "src/dreamsphere.cc: dreamsphere", "src/dream_arr_rect.cc: dream_arr_rect", "mex/mex_dreamrect.cc: mexFunction", "julia/src/jl_dreamcylind.cc: dreamcylind")
P("C83", "Threads that cannot be created",
  "Creating the workers one after the other, while the earlier ones already run, shows no behaviour that creating all of them first does not show. When the operating system refuses the first thread the call ends with an exception and the output is untouched. The code violates what a user expects when a later thread is refused: the exception leaves the call without waiting for the threads that run, and releases the output matrix; from then on every one of those threads that still has to write a visible column cannot finish without accessing released memory, and there is a schedule in which it does. Only if all existing threads have already returned is the call well defined. The signal handlers the call installed stay installed, also in the functions that otherwise put them back, so the host program does not see CTRL-C any more.",
  "all calls, numbers of workers, moments at which a thread is refused, schedules, functions and hosts",
  "a test cannot make the operating system refuse the k-th thread at a chosen moment of a chosen schedule",
  "src/dreamrect.cc: Rect::dreamrect", "src/dream_arr_rect.cc: ArrRect::dream_arr_rect", "oct/oct_dreamrect.cc: dreamrect", "python/src/py_dreamrect.cc: dreamrect", "extra_src/mex_conv_p.cc: mexFunction")
P("C84", "Index arithmetic does not overflow",
  "For the single-element and array functions, as long as the matrices fit into memory (objects below 2^63 bytes) and there are at most 24 workers - or, in the 2^48-byte address space of current processors, at most 2^19 workers - none of the index computations of a call (ranges of the workers, addresses of columns, positions of the coordinates) overflows, so every execution with machine integers is the execution with exact indices. Beyond that limit the code is wrong: with a product of columns and workers of 2^63 or more the call is undefined in Octave and Python, and with 2^64 or more the last column is computed by no worker in MATLAB and Julia.",
  "all sizes, numbers of workers and schedules",
  "the sizes at which indices overflow do not fit the memory of a test machine",
  "src/dreamrect.cc: Rect::dreamrect, Rect::smp_dream_rect", "src/dream_arr_rect.cc: ArrRect::smp_dream_arr_rect", "include/dream.h: dream_idx_type")
P("C85", "NaN, infinite and early arguments",
  "The single-element and array functions do not reject special values, and what happens depends on which argument holds them. If a coordinate of an observation point, a delay, a focusing distance or (spherical transducer) the radius of curvature is NaN or infinite, or the sound speed or sampling interval is NaN or zero, and the transducer has a first cell, every arrival time is NaN or infinite and its conversion to an index is undefined: no execution without undefined behaviour returns a matrix (at the levels ignore, warn and none there is no complete one unless CTRL-C is pressed; if all points are affected, none at any level). The same holds for a single cell whose arrival time does not fit the index type; in MATLAB and Julia, whose index type is unsigned, this is every cell that is heard before sample zero, even at the level ignore. It also holds for a spherical transducer larger than its radius of curvature. If a dimension or sampling step is NaN (or a cylindrical transducer is wider than twice its radius of curvature) and the loops end, the call returns zeros without any error or warning. If the normal velocity is NaN the call succeeds, and without attenuation exactly the samples at which the transducer is heard are NaN, with attenuation every sample as soon as one cell is heard in the response.",
  "all calls, all arithmetics that follow the IEEE rules for NaN and infinity, all schedules and numbers of workers",
  "unit tests use ordinary numbers; the outcome of an undefined conversion on one machine says nothing about others",
  "src/dreamrect.cc: Rect::dreamrect_serial", "src/dreamsphere.cc: Sphere::dreamsphere_serial", "src/dreamcylind.cc: Cylind::dreamcylind_serial", "src/dream_arr_rect.cc: ArrRect::dream_arr_rect_serial", "include/dream.h: dream_idx_type")
P("C86", "Whole calls of annular arrays and of das",
  "A call of the annular array function with checked arguments and a call of das on the CPU, after any session of calls, each from the argument checks to the end of the wrapper, have exactly one outcome, whatever the schedule. For annular arrays it is the matrix whose entry (i, n) is the weighted sum of the rings (outer disc minus inner disc), each late by its delay rounded to samples and one sample more; for das it is the column whose entry n is the sum over the A-scans of the sample at the time from the transmitter to image point n and on to the receiver (SAFT: to the element and back), with a warning, an error and a second output as the error level says. With two or more workers the answer is the documented one (annular arrays: if the number of radii is odd and, under ignore and warn, the outermost disc misses the window whenever another one does). The code violates the documentation with one worker (message about CTRL-C, no warning, second output zero), and when MATLAB, Octave or Python accept an even number of radii: the last radius bounds no ring, yet the call fails when the disc of that radius misses the window, although no contribution of the array does.",
  "all languages, sessions, checked arguments, machines, environment variables, schedules",
  "composes all layers over all inputs and schedules; a test sees one machine and one schedule",
  "src/dream_arr_annu.cc: dream_arr_annu", "mex/mex_dream_arr_annu.cc: mexFunction", "extra_src/das.cc: DAS::das", "extra_src/mex_das.cc: mexFunction", "python/include/py_das.hpp: das")
P("C87", "Whole calls of the convolution functions",
  "A documented call of conv_p, fftconv_p, fftconv_ola or sum_fftconv in MATLAB and Octave, or of conv_p and fftconv_p in Python and Julia, followed from the argument checks through the options, the wisdom, the choice of the number of workers and the threaded computation to the values the interpreter gets back, has exactly one outcome in exact arithmetic: the documented matrix (as first output, or in the matrix that was given to be changed, combined with its old contents as the mode says), with the wisdom as second output if two are asked for; or an exception if the environment variable is unreadable. conv_p gives zeros if one factor is empty. Calls are refused exactly for wrong sizes, call forms, block lengths and wisdom; Octave's conv_p and sum_fftconv then print a message and return nothing, all others raise an error. The code violates the documentation: fftconv_p with exactly one empty factor has undefined behaviour in every language (and nothing else can happen); fftconv_ola adds to the matrix although replacement is asked for, with += and -= adds the contents of scratch memory and counts blocks several times, has undefined behaviour with a vector as second factor, several blocks and fewer cores than columns, with a block length below 1, and for negative block lengths in MATLAB; sum_fftconv divides by the FFT length, adds in Octave where MATLAB replaces, has undefined behaviour for a row vector of inputs, and refuses response arrays for a single input; in-place calls of fftconv_p with two outputs are accepted and hand back the wisdom as first output in Octave and as second in MATLAB.",
  "all matrices, sizes, options, call forms, machines, environment variables, contents of scratch memory, schedules",
  "composes all layers over all inputs and schedules; a test sees one machine and one schedule",
  "extra_src/mex_conv_p.cc: mexFunction", "extra_src/oct_conv_p.cc: conv_p", "extra_src/mex_fftconv_p.cc: mexFunction", "extra_src/oct_fftconv_p.cc: fftconv_p", "extra_src/mex_fftconv_ola.cc: mexFunction", "extra_src/oct_fftconv_ola.cc: fftconv_ola", "extra_src/mex_sum_fftconv.cc: mexFunction", "extra_src/oct_sum_fftconv.cc: sum_fftconv", "python/include/py_fftconv_p.hpp: fftconv_p", "julia/src/jl_conv_p.cc: conv_p", "julia/src/jl_fftconv_p.cc: fftconv_p")
P("C88", "Numeric classes of the arguments",
  "The single transducer, array and annular array functions use the numbers the user wrote, whatever class (double, single, integer, logical) they are stored in, or refuse the call. True in Python (arguments are converted), in Julia (other classes are refused) and, for arguments that are all double, in MATLAB and Octave. The code violates it: in MATLAB and Octave a vector of parameters of class single (in Octave any class but double) makes the wrapper read memory that is not the argument's; 64 bit integers in MATLAB are used as the doubles with the same bits; single precision observation points in MATLAB are accepted and the last point reads after them; and in Octave, even with doubles, user defined focusing of a focused transducer or of an array with one element reads a matrix that has been freed. Octave accepts observation points and delays of any class.",
  "all languages, transducers, argument values, shapes and classes",
  "needs every combination of class, shape and interface; what a read of freed or foreign memory gives in one test run says nothing about others",
  "include/arg_parser.h: get_data, get_scalar, parse_geometry, parse_sampling, parse_material, parse_focus_args, parse_apod_args", "include/arg_parser_python.h: ArgParser", "include/arg_parser_julia.h: ArgParser", "mex/mex_dreamrect.cc: mexFunction", "oct/oct_dream_arr_rect.cc: dream_arr_rect")
P("C89", "Whole calls of circ_sir, scirc_sir, rect_sir, copy_p and add_p",
  "A documented call of circ_sir, scirc_sir, rect_sir (on the CPU), copy_p or add_p in MATLAB and Octave, followed from the argument checks through the choice of the number of workers and the threaded computation to what the user gets, has exactly one outcome in exact arithmetic: the matrix of the closed-form responses (circ_sir: the fraction of a circle inside the disc, at every sample but the arrival on the edge; scirc_sir: its trapezoidal average; rect_sir: the fraction of the circle inside the rectangle, for points beside it), or the given matrix with the block of rows replaced or added; or an exception if the environment variable is unreadable (scirc_sir in Octave does not look at it). Other calls are refused, for copy_p exactly those with wrong counts, rows, columns or sizes. The code violates it: an empty delay is accepted and gives undefined behaviour; rect_sir in front of the rectangle differs by an explicit term; copy_p and add_p for a proper part of the columns have undefined behaviour; a first row 0 is accepted and gives undefined behaviour; row and column numbers that are not whole are not refused: the block starts at the row before the decimal point (row 1 for a number below 1) and has the rounded down distance as length, so that the last row given can be left out, and with a first number below 1 the block can be longer than the matrix (undefined behaviour); in MATLAB a first row after the last one is not refused but undefined.",
  "all argument values and shapes, machines, environment variables, schedules",
  "composes all layers over all inputs and schedules; a test sees one machine and one schedule",
  "extra_src/mex_circ_sir.cc: mexFunction", "extra_src/oct_circ_sir.cc: circ_sir", "extra_src/mex_scirc_sir.cc: mexFunction", "extra_src/oct_scirc_sir.cc: scirc_sir", "extra_src/mex_rect_sir.cc: mexFunction", "extra_src/oct_rect_sir.cc: rect_sir", "extra_src/rect_sir.cc: RectSir::rect_sir", "extra_src/mex_copy_p.cc: mexFunction", "extra_src/oct_copy_p.cc: copy_p", "extra_src/oct_add_p.cc: add_p")
P("C90", "Floating point accuracy of the delay-and-sum sample positions",
  "In floating point (SAFT, TFM and both row-column methods) the A-scan sample that das adds for an image point is the integer part of a number that differs from the exact position (path length times 1000/cp plus the delay, divided by dt; path length over both legs, for stripes to the nearest point between the limits) by at most eleven unit roundoffs of its size plus underflow: it is less than one sample plus that error from the exact position, and it is the integer part of the exact position unless that is within the error of an integer. So, if no position is that close to an integer, every image point is the exact sum of the A-scan samples at the integer parts of the exact positions up to (1+u)^scans - 1 times the sum of their absolute values.",
  "all floating point formats that obey the standard model, grids, points, delays, sound speeds, schedules and numbers of threads (no underflow in the intermediate products, positive cp and dt)",
  "a bound for all inputs of a rounded computation; a test sees single values",
  "extra_src/das.cc: DAS::das_saft_serial, DAS::das_tfm_serial, DAS::das_rca_serial_coltx, DAS::das_rca_serial_rowtx, DAS::das")
P("C91", "NaN and infinite values in das, the convolution functions and the analytic responses",
  "In das, a NaN or infinite coordinate or delay of an image point, a NaN or infinite used coordinate of an element, and a NaN or zero cp or dt make the conversion of the sample position to an integer undefined, as does a finite position that does not fit the index type (in MATLAB every one with a negative integer part): no schedule, for any number of threads, is then a complete run unless CTRL-C, or at the level stop an index out of bounds before, has ended it. A NaN sample in an A-scan makes exactly those image points NaN that use the sample; the others do not depend on it. In conv_p a NaN at entry i of a column of A or j of the column of B makes the entries i+j of the result NaN and the other entries depend only on the pairs that belong to them; in fftconv_p a single NaN makes the whole column NaN. In circ_sir a NaN coordinate, delay, radius, dt or cp silently gives zeros; in scirc_sir too (a NaN dt gives NaN everywhere), in rect_sir for a NaN depth, delay, dt or cp.",
  "all arithmetics that obey the IEEE 754 rules for special values, all arguments, schedules and numbers of threads",
  "the undefined conversion gives whatever the compiler and processor happen to produce, so no test can show what a user may rely on",
  "extra_src/das.cc: DAS::das_saft_serial, DAS::das_tfm_serial, DAS::das_rca_serial_coltx, DAS::das_rca_serial_rowtx", "extra_src/conv.cc: conv", "extra_src/fftconv_p.cc, extra_src/fftconv.cc", "extra_src/circ_sir.cc, extra_src/scirc_sir.cc, extra_src/rect_sir.cc")
P("C92", "Rounding errors of the FFT based convolution",
  "If the Fourier transforms and complex products have relative accuracy delta and mu (error of a coefficient at most delta times the sum of the absolute values of the input), every complete run of fftconv_p, for any number of threads and any schedule, leaves in each sample that is finite the exact convolution of the inputs up to ((1+delta)^3 (1+mu) (1+u) - 1) times the product of the sums of the absolute values of the two columns, plus underflow and, for the in-place modes, the rounding of the last addition. So conv_p and fftconv_p agree up to the sum of the two bounds. If moreover complex sums and divisions by the length have relative accuracy alpha, every complete run of sum_fftconv leaves in each finite sample the exact sum of the convolutions of its M inputs divided by the length N of the result (the division is the fault of C26) up to ((1+delta)^3 (1+mu) (1+alpha)^(M+1) (1+u) - 1) times the sum of the products of the sums of the absolute values divided by N, plus underflow and, for '+=', the rounding of the last addition. Every complete run of fftconv_ola (mode '='; a matrix B, one block, or one column per thread) leaves in each finite sample the old value of the output plus the exact convolution up to ((1+delta)^3 (1+mu) (1+u)^(blocks+1) - 1) times the product of the sums of the absolute values of the two columns (for all blocks together), plus underflow and ((1+u)^blocks - 1) times the old value.",
  "all floating point formats that obey the standard model, all transforms with that accuracy, all finite inputs below overflow, schedules and numbers of threads",
  "a bound for all inputs of a rounded computation; a test sees single values",
  "extra_src/fftconv_p.cc", "extra_src/fftconv.cc: fftconv, add_fftconv", "include/fft.h: FFT::fft, FFT::ifft", "extra_src/conv.cc: conv", "extra_src/mex_sum_fftconv.cc", "extra_src/mex_fftconv_ola.cc: smp_dream_fftconv_ola")
P("C93", "Machine integers in convolutions, copies, analytic responses, delay-and-sum and annular arrays",
  "For conv_p, fftconv_p, fftconv_ola, sum_fftconv, copy_p and add_p (documented calls for all columns), circ_sir, scirc_sir, rect_sir, das (also for the addresses of elements) and annular arrays no index computation overflows as long as the matrices fit into memory and there are at most 8 workers (24 for the functions with observation points; 2^18 for the convolutions and copies in the 2^48-byte address space of current processors): every execution with machine integers is the execution with exact ones, provided that the transforms of an FFT based convolution (the columns of the result; for fftconv_ola a block and the filter) have fewer than 2^31 samples. Beyond that length the code is wrong, because the length is handed to FFTW as an int: if its low 32 bits read as int are not positive, no run of fftconv_p completes (a worker executes a plan that does not exist, likewise in sum_fftconv and, for the length of a block of the transform, in fftconv_ola); otherwise every complete run leaves, in the samples beyond the low 32 bits of the length, what the scratch memory contained divided by the length instead of the convolution.",
  "all sizes, index types, numbers of workers and schedules",
  "needs matrices of 16 GByte and more; the result depends on uninitialised memory",
  "include/fft.h: FFT::FFT, FFT::fft, FFT::ifft", "extra_src/fftconv_p.cc: smp_dream_fftconv", "extra_src/mex_conv_p.cc: smp_dream_conv", "extra_src/mex_sum_fftconv.cc", "extra_src/mex_fftconv_ola.cc: smp_dream_fftconv_ola", "extra_src/mex_copy_p.cc: smp_dream_copy_p", "extra_src/oct_add_p.cc: smp_dream_add_p", "extra_src/das.cc: DAS::das, DAS::smp_das", "src/dream_arr_annu.cc: dream_arr_annu", "extra_src/rect_sir.cc: RectSir::rect_sir")
P("C94", "Numeric classes of the arguments of the convolution, copy and analytic functions",
  "conv_p, fftconv_p, fftconv_ola, sum_fftconv, copy_p, add_p, circ_sir, scirc_sir, rect_sir and dream_att use the numbers the user wrote, whatever class (double, single, integer, logical) they are stored in, or refuse the call. True in Octave for every class (except the geometry of rect_sir and a matrix that is to be changed) and in MATLAB for doubles: the outcomes are those of the whole calls C69, C87 and C89. The code violates it in MATLAB, where no class is checked: with an input matrix or an in-place result of class single, int8, int16, int32 or logical a documented convolution is not refused but has undefined behaviour (unless the environment variable makes it throw first); the same holds for a block length, a list of rows or columns, either matrix of copy_p or add_p (one column beyond the first, or the last row, being enough), observation points, delays and vectors of parameters. With 64 bit integers conv_p and fftconv_p silently convolve the doubles that have the same bits. In Octave a geometry of rect_sir of any class but double is read from freed memory.",
  "all argument values, shapes, classes and stored bits, machines, environment variables and schedules",
  "needs every combination of class, shape and interface; what a read of foreign memory gives in one test run says nothing about others",
  "extra_src/mex_conv_p.cc: mexFunction", "extra_src/mex_fftconv_p.cc: mexFunction", "extra_src/mex_fftconv_ola.cc: mexFunction", "extra_src/mex_sum_fftconv.cc: mexFunction", "extra_src/mex_copy_p.cc: mexFunction", "extra_src/mex_circ_sir.cc: mexFunction", "extra_src/mex_scirc_sir.cc: mexFunction", "extra_src/mex_rect_sir.cc: mexFunction", "extra_src/oct_rect_sir.cc: rect_sir", "mex/mex_dream_att.cc: mexFunction", "include/arg_parser.h: get_data")
P("C95", "Memory kept by calls",
  "A call gives back all the memory it requested except its results, so a long session does not grow; and if memory runs out a call ends with an error. What holds: in every session, whatever requests are refused, no block is given back twice and no block of others is given back; scratch vectors, job tables, focusing and apodization vectors never stay after a call that is granted its memory; conv_p, copy_p and add_p end normally or with an error whatever requests are refused. The code violates the rest: every threaded call keeps its array of thread objects; every call of a transducer or array function (with or without attenuation), of dream_att and of the FFT based convolutions keeps two FFT plans; a returned wisdom string is kept; sum_fftconv keeps its table of filters when it is ended by CTRL-C or refused late; so a session keeps at least one block more for every threaded call. And when just the request for the job table is refused, the transducer and array functions, das, rect_sir, circ_sir and scirc_sir write through a null pointer; fftconv_p, fftconv_ola and sum_fftconv check the job table (an error) but not their scratch vectors nor, in sum_fftconv, the table of filters: when one of these is refused they write through a null pointer.",
  "all sequences of calls, sizes, numbers of workers, and patterns of refused requests",
  "refused requests cannot be produced at will, and a test of one call does not see what a session of thousands keeps",
  "include/fft.h: FFT, get_wisdom", "include/attenuation.h: Attenuation", "src/dreamrect.cc: Rect::dreamrect", "src/dream_arr_annu.cc: ArrAnnu::dream_arr_annu", "extra_src/das.cc: DAS::das", "extra_src/mex_conv_p.cc: mexFunction", "extra_src/mex_fftconv_p.cc: mexFunction", "extra_src/mex_fftconv_ola.cc: mexFunction", "extra_src/mex_sum_fftconv.cc: mexFunction", "extra_src/mex_copy_p.cc: mexFunction", "extra_src/mex_circ_sir.cc: mexFunction", "mex/mex_dream_att.cc: mexFunction")
with open(OUT, "w") as f:
    for d in L:
        f.write(json.dumps(d) + "\n")
print(len(L), "properties")
