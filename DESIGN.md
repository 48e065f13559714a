# Formal model of frli8848/DREAM in Lean 4

## Approach

The C++ and OpenCL code is read as text and transcribed, function by function, into total Lean
definitions under `lean/Verif/`.  Every definition cites the file and lines it models, and says where
it simplifies.  Properties (`properties.jsonl`, C01, C02, ...) are theorems `Cnn_...` about these
definitions; `MANIFEST.json` lists them.  Beside the theorems, `example`s show that concrete,
non-trivial cases meet their hypotheses.

Where the code does *not* have the property a user would expect, the theorem states what the code does
instead (with a witness or for all inputs of the bad class): C16, C21, C28, C32, C34, C37, C39, C41,
C44, C45, C47-C52, C56-C59, C62-C64, C66-C72, C75-C89, C91, C93-C95 contain such results.

### Numbers
* **Uninterpreted arithmetic.**  Control flow, bounds, error codes, threading and data layout are
  modelled over an arbitrary type `F` with an `Arith F` instance (operations `add, sub, mul, div, sqrt,
  sin, ..., le, lt` and the float-to-integer conversions) and **no laws**.  Theorems at this level hold
  for IEEE `double`/`float`, NaN included, and for every rounding mode.  The float-to-index casts
  return `Option Int`; `none` is a value without integral part (NaN, infinity).  A cast that does not
  fit the index type is undefined behaviour (`UB.cast`).
  The `float` instances (das, das_uni) evaluate a few expressions with `double` literals in `double`; the model
  rounds them operation by operation, which differs only in `Fs_khz = (1.0/dt)*1000.0`.
* **Rounded arithmetic.**  Signs of delays and responses are also proved from a short list of order
  laws (`RoundLaws`) met by the reals and by any monotone rounding of real arithmetic.  Error bounds
  (C73, C74) are proved from the standard model (`FloatLaws`: one rounding per operation, relative error `u`,
  underflow error `eta`, finite results have finite operands), met by IEEE `double` outside Lean and by
  `Rnd p` (reals rounded to `p` binary digits) in Lean.  `FloatLaws` is a hypothesis of those theorems,
  not an axiom.
* **Exact reals.**  Statements about values (Rayleigh sums, superposition, convolution, DFT, windows,
  analytic responses, images) use the instance `F = ℝ` (`RealArith`): exact-arithmetic idealisation.
  `x / 0 = 0` is Lean's convention; theorems whose formulas divide carry hypotheses that exclude it.

### Control and memory
* `while` loops on floats are run with fuel; running out is a separate outcome (`Outcome.fuel`),
  undefined behaviour another (`Outcome.ub`).  Termination and non-termination are theorems.
* Buffers (`Buf`) are functions with an explicit size; an access outside the size is `.ub .oob`.
* Threads: a small-step interleaving semantics (`Sched`).  A scheduler is an arbitrary list of actions:
  which worker takes its next step (one access to the output matrix, one access to the atomic run flag,
  or a thread-local computation), or the user's CTRL-C.  Theorems quantify over all lists.
  Sequential consistency is justified for the matrix because workers touch disjoint columns (itself a
  theorem, C01/C09, C75), and for the flag where it is `std::atomic<bool>`.  In circ_sir, scirc_sir, conv_p,
  fftconv_p (not Python), sum_fftconv, fftconv_ola, copy_p and add_p the flag is an `int` or
  `volatile int`; there CTRL-C is a data race (C75), and the theorems about interrupted runs of these
  functions assume that the flag behaves as if it were atomic.
* Every serial function used by workers exists twice (as a function and as a stepwise program, except
  for those written in `Prog`, where one text has both meanings); their agreement is proved
  (`KernelTask`, `Arr.loop_evals`, `Prog.evals`).
* GPU: a launch is an arbitrary interleaving of the memory accesses of its work-items (`Gpu.Dev`,
  `Launched`), starting from unspecified device memory; that the items own disjoint columns, and so
  that the result does not depend on the interleaving, is proved.

### FFTW
`fftw_execute_dft_r2c/c2r` are operations of an uninterpreted interface (`FFTLib`) in the safety and
threading theorems, and the exact half-spectrum DFT pair (`exactLib`) in the value theorems.  Planning
and wisdom have no effect in the model.

## Trusted base
* Lean 4.33.0 kernel.  Axioms used by the theorems: `propext`, `Classical.choice`, `Quot.sound` (some
  theorems use fewer); no axiom is added, nothing rests on compiled evaluation.
* The transcription of C++ / OpenCL into Lean (cited by line), the scheduler granularity described in
  `Verif/Sched.lean`, the exact-DFT specification of FFTW for value theorems, and the specifications
  next to the theorems (`ErrSpec`, `Circle`, the `Surf` definitions, `windowSpec`, ...).

## What is modelled

| code | module |
|---|---|
| include/dream.h enums, `SIRData` | Base, SirData |
| src/dream_error.cc (`dream_out_of_bounds_err`; `dream_err_msg` only as "stops or continues") | Base, ArgParser |
| src/dreamrect.cc, dreamcirc.cc, dreamline.cc, dreamsphere.cc, dreamcylind.cc, dreamrect_f.cc, dreamcirc_f.cc | Kernel, KernelTask, Driver |
| thread count, ranges, worker loops, join, run flag, abort, host result | Partition, Sched, Drv |
| creation of the threads, refused threads | Spawn, ClaimsSpawn |
| machine arithmetic of indices (single-element and array functions) | Mach, ClaimsMach |
| special values (NaN, infinity) in the single-element and array functions | Special, ClaimsSpecial |
| type of the run flags, data races | Race, ClaimsRace |
| signal handlers, run flags across calls, what is reported after CTRL-C | Signals, ClaimsSignals |
| in-place modes, shared variables, non-double arguments | InPlace, ClaimsInPlace |
| m_files/arr_focus_delays.m, h2o_soundspeed.m | MFiles, ClaimsMFiles |
| src/arr_functions.cc, dream_arr_rect.cc, dream_arr_circ.cc, dream_arr_cylind.cc | Arr |
| src/dream_arr_annu.cc | Annu, ClaimsAnnu |
| src/attenuation.cc, mex/oct dream_att | Att |
| include/fft.h | Fft, ConvOpts |
| extra_src/conv.cc, fftconv.cc, fftconv_p.cc, conv_p, sum_fftconv, fftconv_ola, copy_p, add_p | Conv, FftConv, ConvP, Ola, CopyP, ConvOpts |
| extra_src/das.cc | Das |
| das wrappers (mex_das.cc, oct_das.cc, py_das.hpp, jl_das.hpp) and the object kept between calls (include/das.h) | DasFront |
| opencl/das_uni_double.cl/das_uni_float.cl, include/das_uni.h, opencl/cl_das_uni.cc, mex_das_uni.cc, oct_das_uni.cc | DasUni |
| extra_src/circ_sir.cc, scirc_sir.cc, rect_sir.cc | Analytic |
| include/arg_parser*.h and the SIR / array wrappers of mex, oct, python, julia | ArgParser; with the numeric classes of the arguments: Classes |
| opencl/rect_sir.cl, cl_rect_sir.cc | GpuRect |
| extra_src/mex_*, oct_* wrappers of circ_sir, scirc_sir, rect_sir | AnaFront |
| mex_dream_apodwin.cc, oct_dream_apodwin.cc | ApodWin |
| mex_dream_att.cc, oct_dream_att.cc | AttFront (with Att) |
| py_fftconv_p.hpp, jl_fftconv_p.cc, jl_conv_p.cc | ConvHost (with ConvP) |
| whole calls: wrapper, arguments, driver, end of wrapper | Whole, ClaimsWhole, WholeMore, ClaimsWholeMore, WholeConv, ClaimsWholeConv, ClaimsWholeConv2, WholeAna, ClaimsWholeAna, ClaimsWholeCopy |
| reading of DREAM_NUM_THREADS (all drivers), `std::stoul` | EnvThreads |
| oct_dreamrect.cc, oct_dreamcirc.cc with the device argument, cl_dreamrect.cc, cl_dreamcirc.cc host sizes | OctDev (with Gpu, ArgParser) |
| opencl/dreamrect.cl, dreamcirc.cl, das_double.cl/das_float.cl and their launches | Gpu, GpuDas |

## What is not modelled
* Rounding errors other than C73, C74, C90, C92: the other value theorems are about exact arithmetic.  `native_sqrt`, `native_recip` of the
  OpenCL kernels are taken to be the operations they approximate.
* The message dreamcylind prints from its workers when `b > 2|Rcurv|` (src/dreamcylind.cc; the kernel goes on
  with NaN angles, C85).  In MATLAB it is `mexErrMsgTxt` called from a thread that is not the interpreter's.
* Special values: C85 and C91; NaN in the attenuation parameters is only covered by the theorems over
  uninterpreted arithmetic.
* Byte counts that do not fit the `cl_int` members of the das_uni object (outcome `tooBig`, not modelled
  further).
* Octave's value representation: `matrix_value()` of a full matrix shares its memory, of any other value
  is a temporary (`DasArgs.shared`, `delayShared`); stated in `DasFront.lean`.
* Host-language glue beyond shapes, types and texts of the arguments; message texts; memory allocation
  failure beyond C95; CPU affinity;
  iostream output; OpenCL runtime errors; FFTW planning and wisdom files.
* Files not modelled at all: m_files/plot_array.m (drawing), src/affinity.cc, build files, examples, tests,
  include/fft_matlab_no_fftw.h.

## Per property

| id | modelled | proof |
|----|----------|-------|
| C01, C02 | thread count and range computation | arithmetic of `k*No/n`, all No, n |
| C03-C08, C42 | worker loop as small-step machine, run flag, per-worker error, join, wrapper | invariants over arbitrary schedules, generic in the task (`Drv`), instantiated for all drivers |
| C09, C10 | serial kernels over uninterpreted arithmetic | loop invariants by induction on fuel |
| C11-C14 | kernels at ℝ | loop = finite sum; `rint` = round half even; for C12 the converse (`ClaimsTerm`): a point with an endless loop keeps its worker "trapped" in every schedule, so the call never returns |
| C15, C16 | array kernels | induction on elements |
| C17-C20 | `arr_functions.cc` | order laws / reals |
| C21, C22 | `dream_arr_annu.cc` | induction, explicit witnesses for the unsafe cases |
| C23, C43 | `attenuation.cc` at ℝ/ℂ | orthogonality of roots of unity |
| C24 | `conv.cc` over any commutative ring | induction; equality with polynomial product |
| C25, C26, C44 | `fftconv.cc` | convolution theorem for the half-spectrum DFT |
| C27, C28, C45 | `mex_fftconv_ola.cc` | induction over blocks and columns; witnesses for the bugs |
| C29 | conv_p/fftconv_p workers | instance of the generic schedule theorem |
| C30-C32 | `das.cc` | induction over elements, index bounds, witnesses |
| C33, C46 | `circ_sir.cc`, `scirc_sir.cc` at ℝ | arc measure of a circle inside a disc; interval arithmetic of sampling windows |
| C34 | `rect_sir.cc` | arc measure inside a rectangle; witness |
| C35-C37, C47-C51 | argument parsers and wrappers | case analysis over all texts/shapes |
| C38 | `SIRData` | direct |
| C39 | `copy_p`, `add_p` | induction over columns, witnesses |
| C40 | OpenCL kernels | simulation against CPU kernels |
| C41, C52 | wisdom test, optional arguments | case analysis over all texts; composition with the drivers |
| C55-C57 | das wrappers and persistent object | invariant over all call histories; case analysis over texts and shapes |
| C58, C59 | das wrappers on top of `das.cc` | composition with C30; stuck-run argument over all schedules |
| C60-C61 | das_uni kernels and launch | mixed-radix arithmetic; loop = sum; simulation against `das.cc` |
| C62-C64 | das_uni wrappers and persistent object | invariant over all call histories; case analysis over shapes |
| C65 | `attenuation.cc` at ℝ/ℂ | inverse DFT of the assembled spectrum, monotonicity of exp |
| C66 | `rect_sir.cl` | simulation against `rect_sir.cc`; sign of the corner terms |
| C67 | `frontAna` | case analysis of the checks against `AnaDoc`; C33 for the value |
| C68 | `dreamApodWin` | case analysis of the checks; `windowSpec` (C19) and `C20_aperture` for the values |
| C69 | `frontAtt` | case analysis of the checks; the 32-bit loop refines `dreamAtt` in range (C43, C65), is undefined otherwise |
| C70 | `convHost` | composition with C29; stuck-run argument for the unsafe shapes; existence of an interrupted run |
| C71 | `octDev` | composition of C35 (checks), C40 (launch) and C42 (CPU outcome) |
| C72 | `stoul`, `chooseThreads` | every text decomposed against the grammar `Denotes` / `NoNumber`; C02, C03, C42 for the effects |
| C73 | `convCol`, `DasData.acc` read through `FloatView`/`FloatLaws` | generic bound for rounded accumulation (`fold_err`), C29 and C30 for runs; `Rnd p` (reals rounded to p digits) meets the laws |
| C74 | `Kern.serial`, `amp`, `arrival`, `dist3`, loops `visits` of rect/circ/line read through `FloatView` | calculus of relative errors (`Rel`), `foldl_err` over the cells that hit a sample, C10 and C03 for runs; cell positions by induction on the loop variable |
| C75 | shared accesses of workers and of the signal handler (`Drv.nextAccess`, `Drv.DataRace`), `FlagOf` (type of the run flag of each function) | invariant of reachable states (each worker in its own column), C01 for disjoint ranges; a schedule that reaches the race for the non-atomic flags |
| C76 | the main thread of a wrapper as a list of steps (`Fn.script`: install handlers, raise flag, work, restore, report), `Proc` (handler per signal, flag per function, signals the host saw), `Ev` (main step, worker step, signal), `Session`; the trace of a call gives a schedule of `Sched` for the workers | induction over traces and sessions; C76_incomplete_returned joins a trace with `Drv.abort_early` |
| C77 | `arrFocusDelays` (exact reals; nonnegativity under `RoundLaws`), `focusing`, `beamsteering`, `ArrCall.serialAt` of `Arr` | running maximum by induction; limit by squeezing; loop induction for equality of calls |
| C78 | `h2oSoundspeed` over the reals, the published formula `delGrosso` as specification (from the literature, not in the repository) | ring identity; polynomial bounds |
| C79 | `Host` (variables, blocks of memory, sharing), `ConvRun`/`CopyRun` (in-place calls), `ConvCall.progAl` (the column program when inputs are stored in the output matrix; with no sharing it is the program of C29, `progAl_none`); `OlaRun`/`SumRun` in InPlace2.lean for fftconv_ola and sum_fftconv (inputs not stored in the matrix to be changed) | column programs over the generic driver theory; freed memory = block of size zero, invariant that the owner of column 0 is stuck at its first access; MATLAB arguments of non-double class: C94 |
| C80 | specification `Aper` (surface with area parameters), `Aper.rayleigh` (double integral), `Kern.aper` (surface of each transducer), `Kern.convErr` (explicit bound); the responses are those of C53 | two-dimensional Riemann sums with rows of varying length and moving ends (`riemann2_err`), Lipschitz bounds of distance and focusing delay, rounding of the arrival time; continuity of the bound at zero gives convergence; for the cap the strict inequality of the two integrals |
| C81 | `Kern.scale`, `Par.scale`, `SirCall.scale`; surfaces of C53 | similarity of sampled surfaces; reflection of the sums over cells; C80 for the approximate symmetry; concrete disc for the violation |
| C82 | `Drv.Sees`, `SirSees`, `ArrSees` (Whole): argument checks, thread count, driver, join, wrapper | composition of C35, C36, C42, C53, C03 and C23: every outcome equals the answer, and the answer is reachable; late-arrival call as witness of the violations |
| C83 | `spStep`, `spExec` (Spawn): creation events interleaved with worker steps, refusal releases the matrix; `Fn.cutScript` for the handlers | simulation by `exec`; a worker that needs a column that changes cannot be done in a memory of size zero; concrete call with two points |
| C84 | `IdxTy.norm`, `machInit`, `machTask` (Mach): index expressions of the drivers in 64-bit arithmetic | step-by-step equality with the exact model as long as the bounds hold; direct computation beyond them |
| C85 | `IeeeLaws` (Special): the rules for NaN and infinity as hypothesis, met by `XReal` (reals, two infinities, NaN); calls of C53 over any such arithmetic | an invariant of the worker that owns the point (`Ahead`, `Doomed`): it cannot reach the end without the undefined conversion; empty loops for NaN geometry; fold over contributions for NaN velocity |
| C86 | `AnnuSees`, `DasSees` (WholeMore): as C82 for dream_arr_annu and for `das` on the CPU after any session (in Python and Julia the exception text of `das` is always "CTRL-C pressed!"; `Seen.failed` tells the message printed before) | composition of C51, C22, C53, C03 and of C55, C58, C30, C03; an even number of radii with a wide last disc as witness of the violation |
| C87 | `ConvJob.Sees` (WholeConv; one structure with the parts in which the functions differ), `HostConvSees` for Python and Julia; the caller sees `ConvSeen` | composition of C52, C70, C29, C26, C27 and C03: every outcome equals the answer, and the answer is reachable; refusals as equivalences; calls that never complete from C28, C44, C45 and from the access out of bounds with an empty factor; that they have undefined behaviour, and are not merely endless, from `Drv.Spinless` (ProgEnds): under a fair schedule a driver whose programs contain no endless loop ends or becomes undefined |
| C88 | `TArg` (numbers, class, the doubles found in the stored bytes), `frontSirT`, `frontArrT`, `frontAnnuT`: the wrappers with the memory they really read (MATLAB: the stored bytes; Octave: a freed temporary unless a double matrix; Python converted; Julia refused) | equality with the class-free front ends of C35 for the classes that are read correctly, out-of-bounds outcome with witness for the others |
| C89 | `AnaSees` (WholeAna) around `frontAna` of C67 and the driver of C32-C34; `copyJob` (WholeAna), a `ConvJob` of C87 with the checks and conversions of the index arguments | composition of C67, C72, C03 and the kernel theorems: every outcome equals the answer, and the answer is reachable; `blockOf` is the block operation; calls that never complete from C39, and are undefined by `Drv.Spinless`; offsets outside the matrix that a worker cannot avoid (`Prog.Hits`) for row 0 and for first numbers below 1; floor and truncation of real numbers for numbers that are not whole |
| C90 | the programs of C30 over a `FloatView` that obeys `FloatLaws` (C73, with the comparison `<`); exact `position` of an A-scan sample from the vectors of its two legs | relative error calculus of C74 through distance, travel time, delay and sampling frequency; `truncR_near` for the integer part; the image by C73_das |
| C91 | the programs of C29, C30, C33, C34, C46 over any arithmetic that obeys `IeeeLaws` (C85, with the comparison `<` and the integer part); `DasCall.Special` lists the special inputs of a sample position; `FFTLib.Spreads` is what is assumed of the transforms in fftconv_p | special values propagate to the position, whose conversion is `.ub .cast`; a program that is undefined at an A-scan returns only by the stop before it (`loop_special`), so no run is complete; the results of C29, C30 and the closed forms of the analytic responses evaluated with all comparisons false; `XReal` examples |
| C92 | the programs of C29 for fftconv_p over a `FloatView` that obeys `FloatLaws` (C73) and a transform library that obeys `FFTLib.Accurate` (FFTW itself is not modelled) | every coefficient of both spectra, of their product and of the backward transform estimated by the sums of absolute values; the convolution theorem of C25; a library of rounded exact transforms obeys the assumption (`rndLib_accurate`); for sum_fftconv also `FFTLib.AccurateSum`, which follows from `FloatLaws` for a complex arithmetic part by part (`AccurateSum.of_parts`), and an induction over the inputs; for fftconv_ola an induction over the blocks (`olaCol_round`), whose sizes add up to the size of the column |
| C93 | `planLen`, `fftI`, `ifftI` (the `int` length of a plan), `machTask` of each call (MachConv), copy_p and add_p (MachCopy; the destination address and the number of bytes of memcpy), fftconv_ola (MachOla; the numbers of bytes of memcpy and memset; the pointers `Ap`, `Bp` advance exactly) | step-by-step equality with the exact model as long as the bounds hold; stuck-run argument for missing plans; direct computation for short plans |
| C94 | `TMat`, `TArr`, `YClass`, `TAnaArgs`, `TAttArgs` (numbers, class, the doubles found in the stored bytes; ClassesConv): the wrappers of C69, C87, C89 with the memory they really access; das and complex or sparse arguments are not included | equality with the class-free wrappers for the classes that are read correctly; stuck-run argument (`Drv.ofProg_stuck_at`: the program of the last column must access an index outside the stored bytes) for the others |
| C95 | `HM` (HeapUse): requests, releases, local objects and exceptions, for any pattern of refused requests; one program per kind of call; contents and the order of the workers are left out (each worker's blocks are its own); refused scratch vectors are followed to their first use in the FFT convolutions only (not inside the planner and the attenuation), plans are one block each, objects of das kept between calls and refused Octave copies are not modelled | `Leaves`/`Breaks` (blocks left when all is granted) and `OwnOnly` (never a wrong release) by composition over the program; induction over the session; direct execution for one refused request |
| C53, C54 | all SIR kernels, arrays, annular arrays at ℝ | sweep loops = sums over sampled surfaces; algebra of focusing |

## Mutation tests
`seeded/LOG.jsonl` records edits of the model that imitate realistic bugs, the theorems that then
failed, and the theorems that were added or tightened when none (or only unrelated ones) failed.
