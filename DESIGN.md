# Formal model of cycfi/Q in Lean 4 — design

## How the model is organised

* `lean/Verif/Model/*.lean` – executable definitions, function by function; each definition cites the
  file and lines in `/repo` it models and states any simplification.
* `lean/Verif/Proof/*.lean` – helper lemmas.
* `lean/Verif/Props/*.lean` – the property theorems (`Cnn_…`), small independent specifications, and
  non-vacuity examples.

Modelling conventions

* Machine integers whose wrap-around matters are `BitVec n`; otherwise `Nat`/`Int`.
* Undefined behaviour is a distinct outcome (`Except UB α`), never assumed away.
* Floating-point DSP code is modelled over an arbitrary (linearly ordered) field, i.e. with exact
  arithmetic.  Code that only compares and selects is modelled over an arbitrary linear order, for which
  the theorem is also literally true of non-NaN floats.  Where rounding matters to the property a concrete
  binary32 round-to-nearest operator over ℚ is inserted after each operation.
* A property the code violates is kept at full strength in `properties.jsonl`; the negation is proved on a
  concrete witness, and a `_partial` theorem states exactly what does hold.

## Per-property plan

* **C01 Ring buffer recency** — Model ring_buffer with BitVec 64 position and mask; refinement to a list of the last cap values by induction over the history.
* **C02 Ring buffer capacity** — Characterise smallest_pow2; invariant over all operations.
* **C03 Ring buffer refines a rotating window under every operation mix** — Executable spec on List; simulation relation; UB-carrying model shows no oob outcome is reachable.
* **C04 Integer delay line** — Corollary of C01 refinement on the model of delay.
* **C05 Fractional reads interpolate neighbours** — Ordered-field model, hull lemma; floor/index split.
* **C06 One- and two-sample delays, differentiators, integrator** — Stream models; induction over input lists; stated against list indexing and sums.
* **C07 Moving sum is the window sum** — Refinement over an additive commutative group, built on the ring-buffer model.
* **C08 Moving average is the window mean** — Real case proved from C07. Integer case: model C++ usual arithmetic conversions (int / size_t); prove exactly when it is right and give a counterexample.
* **C09 Exponential moving average stays in the input hull** — Ordered-field model; rt variant's stale coefficient gives a counterexample theorem.
* **C10 Moving maximum is the window maximum** — Faithful array-tree model over a linear order; tree invariant (each node = max of children except along stale path) and induction.
* **C11 Median of three** — LinearOrder model; lattice proof.
* **C12 Bit set/get round trip** — BitVec word model with C++ int shift and integral promotion; proved for 32/16/8-bit words; for 64-bit words prove exactly which positions work and refute the rest.
* **C13 Range set touches exactly the range** — Word-loop model over BitVec; prove pointwise characterisation for all i,n without 64-bit overflow; negative/overflowing lengths recorded.
* **C14 Bitset accesses are in bounds for every index** — UB outcome in the model; prove safe for i≠size; refute at i=size.
* **C15 Bitstream autocorrelation is a Hamming distance** — BitVec 64 model with shift/merge; popcount = counted bits; index bounds.
* **C16 Zero-crossing edge store never overflows** — Step-function model with ring buffer of edges; inductive invariant.
* **C17 Zero-crossing readiness protocol** — Same invariant; readiness corollary.
* **C18 Zero-crossing frame counter stays bounded** — Invariant on frame/ready counters.
* **C19 Edges are well ordered** — Chain invariant on edge list.
* **C20 Zero-crossing hysteresis** — Step theorem.
* **C21 Periodicity range** — Invariant over whole runs: every collected periodicity is 1-count*2/window with count at most half the window (from C15); in exact arithmetic and in single precision.
* **C22 Bitstream of a pulse train** — Loop invariant of set_bitstream over the C13 range-set theorem. The code violates it for a pulse that ended before the window: exact characterisation and a concrete run.
* **C23 Detector range validation** — Direct model of the constructor with checked conversions.
* **C24 Period and pitch detection never go out of bounds** — UB-carrying model over uninterpreted floating point; invariant over whole runs. One undefined conversion (quotient of periods to int) is reachable: concrete run.
* **C25 Pitch detector acceptance rules** — Relational specification (PitchRule) proved for every call from every reachable state, exact arithmetic; readable corollaries, of which those about jumps and drops are also proved in single precision.
* **C26 Dual pitch detector selection** — Selection and prediction rule as separate specifications, in exact arithmetic and (selection) in single precision; invariant: the mean is positive and both detectors well-formed.
* **C27 Phase accumulates modulo one turn** — BitVec 32 model; induction over the operation list.
* **C28 First/last flags mark each cycle exactly once** — BitVec 32 arithmetic proof; counting by induction.
* **C29 One-shot phase saturates** — BitVec 32 model of the branch-free saturating code; shown equal to min/max by induction.
* **C30 Phase conversions** — Rational model with IEEE rounding (concrete round-to-nearest-even with proved laws); undefined float-to-integer conversion is an outcome. Violation theorem: f>=sps is undefined.
* **C31 Sawtooth stays bounded** — Operation-by-operation float model with rounding laws; Sterbenz-type exactness lemmas.
* **C32 Square wave stays bounded** — Rounded float model; theorem excluding the two phases, plus a theorem that phase 2^31 gives exactly -2 for every increment.
* **C33 Pulse wave stays bounded** — As C32.
* **C34 Triangle waves stay bounded and are defined** — Rounded float model with abs(int32) overflow as an outcome.
* **C35 Sine oscillator accuracy** — All 1025 literals extracted into Lean; kernel-checked rotation recurrence + Taylor + Mathlib's pi bounds give each entry; interpolation error by convexity; rounding laws for the float operations.
* **C36 MIDI channel messages round trip** — BitVec model of the packed messages; proved for all bytes.
* **C37 MIDI 14-bit values round trip** — BitVec 16 arithmetic.
* **C38 MIDI dispatch is total and correct** — Model of the switch against a separate table of the MIDI standard; proved for all statuses below 0xF0; refuted for system messages.
* **C39 Note name/number conversion** — Parser model on character lists with uninitialised reads as an outcome.
* **C40 Note frequencies** — Rounded double model of the table; real-analysis error bound; rounding commutes with doubling.
* **C41 ADSR stages have the documented curve and finish** — State-machine model parameterised by the float and double roundings; strict-decrease argument on the float grid for rounding, closed forms for exact arithmetic.
* **C42 ADSR envelope stays between 0 and the trigger level** — Inductive invariant over all twelve operations; rounding laws (a rounded step towards a target never overshoots).
* **C43 ADSR state transitions** — Transition relation proved for arbitrary rounding functions; initialisation invariant.
* **C44 Envelope followers bracket the signal** — Model both followers with a binary32 rounding after each operation; key lemma: the rounded approach step lands between sample and state; induction over the history. Geometric decay in exact arithmetic. Counterexample for half a sample of release.
* **C45 Time-constant coefficient is a valid smoothing coefficient** — Error analysis of the rounded polynomial; proved for at least 1.255 samples; violated for every time constant below 1.252 samples.
* **C46 Fast envelope follower holds exactly the recent peak** — Model with 16-bit counters over any linear order; invariant: each cell is the maximum since it was last cleared; closed form of the output; violation theorems for the wrap and for the truncation.
* **C47 Compressor never boosts** — Model with rounding of each operation; monotonicity of rounding; ideal curve as a separate specification.
* **C48 Soft-knee compressor joins the hard compressor smoothly** — As C47; sign and monotonicity with rounding on each side of the upper edge; curve over the rationals.
* **C49 Expander only attenuates below threshold; AGC gain is capped** — Model with rounding of each operation; monotonicity of rounding.
* **C50 Noise gate hysteresis** — Stream model; specification by the last decisive sample; violation witness and the part that holds for the windowed gate.
* **C51 Clipping** — Case analysis; rounding bounds; algebra of the cubic.
* **C52 Comparators switch only on crossing a threshold** — Stream model; specification by the last decisive sample; induction over the history.
* **C53 Monostable pulse width** — Counter model; induction over the width.
* **C54 Edge, zero-cross and peak detectors** — Stream model; specification by the last decisive sample; rounding included.
* **C55 DC blocker removes DC** — Exact arithmetic; hull invariant of the integrator; telescoping sum; unbounded response witness.
* **C56 One-pole low-pass and leaky integrators stay within the input range and converge** — Model with rounding after each operation; hull invariant by induction; error analysis of the coefficient for 2 pi f/sps up to 1.34; unbounded step response for 2 pi f/sps of 2.6 and more; the integer integrator over Int with its rounding division.
* **C57 All-pass filters preserve energy and only shift phase** — Exact arithmetic; lossless identity by induction; particular solution plus geometric decay. C57_pivot is about the exact tangent, C57_pivot_float about the coefficient the code computes (fast tangent, float, double and long double rounding).
* **C58 Biquads implement their difference equation** — Stream model over a commutative ring; invariant relating the delays to the history.
* **C59 Biquads have the response of their analogue prototypes** — Exact real arithmetic: particular solution of the difference equation plus decay of the homogeneous one; half-angle substitution for the bilinear transform.
* **C60 Biquads are stable** — Exact real arithmetic: Jury criterion for each kind, factorisation over the complex numbers, geometric bounds.
* **C61 Decibel conversions are safe, monotone and accurate** — Tables extracted from the source; IEEE rounding of every operation; kernel-checked recurrences tie the tables to the logarithm and the exponential; chord bounds.
* **C62 FFT computes the discrete Fourier transform** — Model of the array program with a rounding function; bit-reversal counter by induction on the bits; butterflies by loop invariant; decimation in time = DFT by induction; rounding error by induction over the levels (twiddle recurrence, butterfly lemma), compile-time sine by Taylor bound and error propagation.
* **C63 WAV memory delivers every frame in order** — Reader modelled as a tape of samples, and that model proved equal (C63_reader) to the byte-level model of dr_wav on the file; buffer and iterator modelled exactly; invariant describing the samples still to be delivered; induction over the calls; the restart claim is proved at buffer boundaries and after the end of the file, the exact behaviour elsewhere, and refuted by a run.
* **C64 Device lookup** — Host API modelled as a list of device descriptions; list induction; characterisation of exactly when get is right; counterexamples.
* **C65 Fast random generator** — Unbounded-integer and modular model; Hull-Dobell argument by 2-adic induction; counting argument for uniformity.
* **C66 Linear interpolation** — Ordered field.
* **C67 MIDI input processing** — Model with an oracle for Pm_Read, induction over the reads.
* **C68 Dynamic smoother stays within the input range and converges** — Exact arithmetic; convex-combination invariant over the call history, retunings included; in float: monotone rounding plus a tie argument at the power of two.
* **C69 Rounding errors do not build up in the filters** — Rounded and exact model in lock-step; per-step error 6u times the sum of the absolute terms; invariant region of the noisy recursion (complex poles for the second order, contraction for the first); grid argument for exactness of the sum; absorption witness for the drift.
* **C70 Unit types behave like the quantities they stand for** — Rational model with a lawful binary64/binary32 rounding for each operation, modular arithmetic for phases, composition with the decibel table bounds.
* **C71 Two-point average** — Model the recursion; the property is false of the code: prove the recursion, hull, and a violation witness.
* **C72 Stored zero-crossing edges are real pulses** — Ghost history of outputs and samples; invariant relating edge positions and data to absolute time.
* **C73 Fast downsampler** — Stream model; induction over the history.
* **C74 Resonant low-pass filter is stable** — Exact arithmetic; two-dimensional linear recursion, Jury criterion, geometric bounds.
* **C75 Pulse peak covers the last two windows** — Ghost record of the samples fed with the ready flag; invariant relating the two stored peaks to the samples of the last two windows.
* **C76 What a period estimate means** — Postcondition calculus for the nested loops with break; loop invariants, for any floating-point semantics; composition with the reachability invariants, in exact arithmetic and in single precision.
* **C77 Period prediction** — Postcondition of the two nested searches; commutation of the step with forgetting the prediction; induction over histories, for any floating-point semantics.
* **C78 Signal conditioner** — Composition of the rounded models of follower, gate, compressor and decibel tables; invariant over the operations; error propagation through log and exponential.
* **C79 Level crossfade** — Rounded model with both precisions; exactness of 1-x in double; composition with the decibel accuracy.
* **C80 Smoothed and RMS envelope followers** — Composition of the fast follower, moving sum and decibel models; refinement to the plain history.
* **C81 Fast reciprocal and division** — Model on IEEE-754 bit patterns with a value function; exact rational product in two mantissa ranges; counterexample theorems for negative and huge arguments.
* **C82 Fast logarithms** — Bit-pattern model; concavity of the logarithm (Bernoulli) from below and a tangent from above; rounding-error bounds.
* **C83 Fast powers** — Bit-pattern model; the logarithm bounds of C82 applied to the constructed bit pattern; counterexample theorems.
* **C84 Fast sine and tangent are accurate and odd** — Bit-exact model with every operation rounded; Taylor bound for the cosine, Bernstein form of the difference polynomial, propagation of rounding errors.
* **C85 Taylor exponentials are accurate** — Rounded model; Mathlib's remainder bound; induction over the Horner scheme for the rounding error.
* **C86 Rational tanh: accurate, odd, bounded** — Rounded model; three-angle formula; Taylor lower bound of exp and Bernstein form for the accuracy; evaluation of the roundings for the witness.
* **C87 Polynomial tangent is accurate** — Rounded model; Taylor bounds for sine and cosine, Bernstein form.
* **C88 Interpolation stays between its end points; tolerance comparisons do not reject close numbers** — Any lawful rounding; monotonicity and the grid of representable numbers; exact characterisation of the int overload.
* **C89 Audio and MIDI streams: opening, callbacks, closing** — Arbitrary host as a parameter, calls to it recorded as a trace; case analysis of the constructors and callbacks; induction over member calls.
* **C90 WAV files round-trip bit-exactly** — Byte-level model of dr_wav writer and reader over a byte-list file; parse-after-print proof of the header; induction over the writes and over the reader operations; violations by computation of the header fields.
* **C91 A crash while writing a WAV file loses samples but never corrupts them** — File operations as a list of (offset, bytes) writes; file after every byte prefix characterised; the reader model run on it. Writes are assumed to reach the disk in program order.
* **C92 Opening any file is safe and reads exactly its data chunk** — Byte-level model of drwav_init with bounded 32/64-bit arithmetic and a parser loop; proof that the loop always ends; the reader state as a function of the file position; violations by running the model.
* **C93 PCM samples convert to the right floats** — Conversion functions over the abstract rounding model with exact powers of two; integer bounds from two's complement; exactness by representability, the rest by the rounding bound and monotonicity.
* **C94 A-law, mu-law and floating-point samples convert to the right floats** — The tables as they are in the code, compared by the kernel with the G.711 formula for all 256 codes; conversions over the rounding model; the read loop of C92.
* **C95 IMA ADPCM files decode as the format prescribes** — Model of the block decoder with its cache, counters and tables, with bounds and overflow checks; a generic invariant relating cache, rest of the block and following blocks to the list of future samples; refinement to an independent specification of the format; violations by running the model.
* **C96 Microsoft ADPCM files decode as the format prescribes** — As C95, with the Microsoft predictor and adaptation tables.
* **C97 The period detector measures a periodic signal exactly** — Invariant relating the stored edges to the pulses of the signal through every call, shift and reset; the bit pattern of a window is the pulse pattern, hence N-periodic; the first comparison of the search succeeds and ends it unless the half-period test sees only empty parts; half-period test proved decisive for every window but 320. Lock-on: stale edges are flushed by a potential argument (frame counter and number of stored edges), then the invariant of the fresh run holds.
* **C98 The pitch detectors report the pitch of a periodic signal** — The period detector on a train (C97) composed with the bias logic: invariants over every call; for the violations a concrete history evaluated by the kernel, then an invariant for the infinite remainder.
* **C99 The echo programs repeat the input at the delay asked for, and stay bounded** — Callback loop over the ring buffer model of C04; the invariant is that the line holds the fed-back history; refinement to a recurrence on the input; geometric closed form and bound by strong induction.
* **C100 The MIDI synthesizer: safe, bounded, silent when no key is held** — Each frame and each message is an atomic step over the envelope, oscillator, filter and clipper models in binary32/64; invariant of envelope levels and members written; the release ends because every step lowers the level by at least one unit in the last place. Infinities are not modelled (overflow of the modulated filter), nor the data race between the two threads.
* **C101 The tone generator plays the frequency asked for** — Callback loop over the phase and table models; induction over buffers and frames; periodicity and the Lipschitz constant of the real sine.
* **C102 Wave64 files open safely and deliver exactly their data chunk** — Model/DrWavW64 is the W64 branch of drwav_init over the file model of C92; specification: a declarative encoder of Wave64 chunks (16-byte identifiers, sizes including the header, padding to 8) and the tape of C92.
* **C103 Compressors and expanders applied to a signal, feed-forward and feedback** — Model/CompChain composes the followers, the decibel conversions and the processors, with binary32/binary64 rounding at every step; invariants of the followers by induction over the signal, accuracy from C61 and C47.
* **C104 Automatic gain control levels the delayed signal** — Model/AgcChain composes the models of the follower, the delay, the agc, the moving average and the crossfade in binary32/binary64; Props/AgcChain proves the per-sample law for every signal by induction over the signal, from the laws of the parts (C61, C79, C80, C06), and shows that the look-ahead collapses to one sample when it is a power of two of samples.
* **C105 The MIDI monitor prints every channel message, legibly and in order** — Model/Monitor: the handlers as functions to text over Model/Midi; Props/Monitor: every line is self-delimiting and injective (unique parse of decimal numbers and separators), then induction over the history.
* **C106 Fast exponential, hyperbolic functions and natural logarithm** — Model/FastHyper over the bit-level model of the fast power of two; Props/FastHyper derives the bounds from C83 and the rounding-error calculus.

## Trusted base

### Logic

* Lean 4.33.0's kernel.  Every theorem depends on at most the axioms `propext`, `Classical.choice` and `Quot.sound`; no axiom is added,
  nothing is left open, nothing is evaluated by compiled code (`decide` is used through kernel reduction only).
* Mathlib's definitions of the mathematical objects that occur in statements: ℚ, ℝ, ℂ, `Real.sin`, `Real.tan`, `Real.exp`, `Real.log`, `Real.pi`,
  `BitVec`, `List`, limits (`Filter.Tendsto`).

### The tie between model and code

The model is tied to the C++ text only by reading; every definition cites the lines it was read from.  The assumptions made in reading are:

* **Platform.** 64-bit, 32-bit two's-complement `int`, `float`/`double` = IEEE-754 binary32/binary64, round to nearest even, `long double` literals at least as
  precise as `double`, `char` input ASCII and the C locale.  Little-endian host for `dr_wav.h` (its endianness test selects the plain copies).
* **Undefined behaviour** is a distinct outcome: `Except UB α` (module `Model/UB.lean`) for out-of-range access, signed overflow, out-of-range float-to-int
  conversion, oversized shifts, division by zero, uninitialised reads.  `CYCFI_ASSERT` (defined outside the checkout) is modelled as a failing outcome of the same kind.
* **Headers outside the checkout** (submodule `infra`): `smallest_pow2(n)` is the least power of two ≥ n, `is_pow2`, `pow2`, `natural_uint` = 64-bit unsigned,
  `iterator_range`, `float_iterator`; the accumulator type `promote(T)` of the moving sum is a parameter (any rounding).
* **Floating point**, three levels, named in each theorem's comment:
  1. *exact*: over ℚ, ℝ, ℂ or an arbitrary linear ordered field — the algorithm, not its rounding;
  2. *any lawful rounding* (`Lawful p emin fl`, Model/Rounding.lean): monotone, idempotent, exact on representable numbers, relative error ≤ u;
     the theorem then holds for every such rounding, in particular for the concrete `fl32`/`fl64` (`fl32_lawful`, `fl64_lawful`);
  3. *concrete* round-to-nearest-even `fl32`, `fl64` on ℚ after each operation.
  Levels 2 and 3 have unbounded exponents upwards (no infinity or NaN: the theorems carry range hypotheses or bound the results), gradual underflow, no signed zero,
  no fused multiply-add and no excess precision.  Code that manipulates the bits of a float (`fast_log2`, `fast_inverse`, db tables …) is modelled on the bit patterns, and
  type punning through a union or pointer is a copy of the bits.
  Code that only compares and selects is modelled over an arbitrary linear order.
* **External libraries.** PortAudio and PortMidi are modelled by their documented behaviour as an arbitrary host answering each call (Model/AudioStream, Model/Device, Model/Midi);
  `stdio` files are byte lists, writes reach the file in program order, a crash leaves a prefix.  Memory allocation does not fail.  No disk errors.
* **Concurrency.** The code has no locks or atomics of its own.  What is modelled of it is the interleaving at the level the host guarantees: an audio callback is a step of the host
  between API calls (C89).

### Files modelled, and what is left out

| file in /repo | module in lean/Verif | left out |
|---|---|---|
| q_lib/include/q/detail/count_bits.hpp | Model/Bitset | compiler intrinsic = population count |
| detail/db_table.hpp | Model/DbTable, Proof/DbTable | — (whole table) |
| detail/fast_math.hpp | Model/FastMath, Model/FastHyper | functions Q never calls: the more precise exp, log, pow and hyperbolic functions, erf, digamma, gamma, Lambert W, the SSE versions |
| detail/init_store.hpp | Model/Ring | — |
| detail/sin_table.hpp, table_lookup.hpp | Model/SinTable, Model/Sin | — |
| fft/fft.hpp | Model/FFT | — |
| fx/allpass.hpp, special.hpp, lowpass.hpp | Model/Fx, Model/RoundFilter, Model/Delay | trivial getters |
| fx/biquad.hpp | Model/Biquad, Model/RoundFilter | — |
| fx/delay.hpp | Model/Delay | — |
| fx/dynamic.hpp | Model/Dynamics | getters and setters other than the ratio and threshold are copies |
| fx/envelope.hpp | Model/Follower | — |
| fx/feature_detection.hpp | Model/Logic | `min_max_range` type only used as a pair |
| fx/median.hpp, moving_maximum.hpp, moving_average.hpp | Model/Moving, Model/RoundFilter | — |
| fx/noise_gate.hpp, signal_conditioner.hpp | Model/Conditioner, Model/Logic, Model/RoundGate | — |
| fx/waveshaper.hpp | Model/Fx | — |
| pitch/period_detector.hpp, pitch_detector.hpp, dual_pitch_detector.hpp | Model/PeriodDetector, Model/PitchDetector over an abstract float type; instances: exact rationals, binary32 rounding (Model/Float32) | — |
| support/audio_stream.hpp | Model/AudioStream | — |
| support/base.hpp | Model/FastMath, Model/Rand, Model/Envelope, Model/Delay, Model/Sin | — |
| support/decibel.hpp | Model/Decibel | — |
| support/frequency.hpp, literals.hpp, phase.hpp, value.hpp | Model/Units, Model/Phase | — |
| support/midi.hpp, notes.hpp | Model/Midi | — |
| synth/\*.hpp | Model/Osc, Model/Sin, Model/Envelope | — |
| utility/antialiasing.hpp | Model/Osc | — |
| utility/bitset.hpp, bitstream_acf.hpp | Model/Bitset | — |
| utility/ring_buffer.hpp, fractional_ring_buffer.hpp, interpolation.hpp | Model/Ring, Model/Delay | — |
| utility/zero_crossing.hpp | Model/ZeroCrossing | — |
| q_io/src/audio_device.cpp, midi_device.cpp | Model/Device | library initialisation/termination objects |
| q_io/src/audio_stream.cpp, midi_stream.cpp | Model/AudioStream, Model/Midi | — |
| q_io/src/audio_file.cpp, include/q_io/audio_file.hpp | Model/Wav | — |
| q_io/external/include/dr_wav.h | Model/DrWav, Model/DrWavW64, Model/WavConvert, Model/DrWavAdpcm | memory-buffer and callback front-ends not used by Q |
| example/delay.cpp, example/io_delay.cpp, example/square_synth.cpp, example/sin_synth.cpp, example/midi_monitor.cpp | Model/Echo, Model/Synth, Model/SinSynth, Model/Monitor | the audio callbacks and the MIDI processor; `main`, device selection and the console are not modelled; other examples are not modelled |
| test/compressor_ff_fb.cpp, test/compressor_expander1.cpp, test/agc.cpp | Model/CompChain, Model/AgcChain | the processing loops, as the documented use of fx/dynamic.hpp; file input and output not modelled; the rest of test/ is not modelled |

### Places where the code and the intended property disagree

The full English property stays in `properties.jsonl`; the disagreement is a theorem whose name ends in `_violation` (or `_counterexample`): C08 (int moving average of negative sums), C09
(run-time width change), C12/C14 (64-bit bitset, index size()), C22 (stale edge), C24 (bad float-to-int cast), C32/C33/C34 (band-limited oscillators at one phase), C38 (system messages never dispatched), C39
(note names), C40 (E-flat constants), C43 (legato), C44/C45 (very short time constants), C46 (16-bit counter), C50 (windowed gate), C55/C56 (cut-off above a fraction of the rate), C59 (shelf Q), C63 (seek), C64
(device lists), C67 (MIDI error), C69 (moving sum drift), C70 (phase times float), C71 (two-point average), C81/C83 (fast log/pow ranges), C86 (tanh above 1), C88 (interpolation end point), C89 (audio stream), C90/C92/C93
(wav files), C97 (320-sample windows), C98 (octave and mean lock-out), C99 (delay rounded up to a power of two), C100 (velocity 0, early note-off, soft notes), C102 (Wave64 padding, fact count), C104 (look-ahead of a power of two of samples), C105 (device errors), C106 (fast tangent of large negative numbers).  Each witness is a reachable state or a concrete input.
