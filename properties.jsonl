{"id": "C01", "title": "Ring buffer recency", "statement": "After any history of push, b[k] is the value pushed k pushes before the latest one, for every k below the capacity; b.front() is the latest value and b.back() the oldest retained one. Values older than the capacity are forgotten, and slots not yet pushed read as the value they were filled with.", "quantifier": "every requested size, every push history of any length, every index below capacity", "why_tests_cant": "unbounded push histories and every size; wrap-around positions depend on the whole history", "anchors": ["q_lib/include/q/utility/ring_buffer.hpp: ring_buffer::push, operator[], front, back", "q_lib/include/q/detail/init_store.hpp"]}
{"id": "C02", "title": "Ring buffer capacity", "statement": "size() is the least power of two not below the requested size, and no operation ever changes it.", "quantifier": "every requested size and every operation history", "why_tests_cant": "all sizes; invariance under all histories", "anchors": ["q_lib/include/q/utility/ring_buffer.hpp: ring_buffer::ring_buffer, size", "q_lib/include/q/detail/init_store.hpp: resize"]}
{"id": "C03", "title": "Ring buffer refines a rotating window under every operation mix", "statement": "Under any interleaving of push, pop_front, clear, fill, and element assignment with any index, the buffer behaves like a circular sequence of `capacity` cells: push rotates the oldest cell to the front and overwrites it, pop_front rotates the newest to the back, clear/fill overwrite every cell; and no operation ever accesses storage out of bounds, whatever the index.", "quantifier": "every operation sequence, every 64-bit index", "why_tests_cant": "all interleavings and all indices, including unmasked positions left by pop_front", "anchors": ["q_lib/include/q/utility/ring_buffer.hpp: push, pop_front, operator[], clear, fill"]}
{"id": "C04", "title": "Integer delay line", "statement": "The i-tap delay returns the sample fed i+1 calls earlier (0 before that), for every i below the buffer capacity; the plain call returns the sample fed capacity calls ago.", "quantifier": "every input sequence, requested length, tap", "why_tests_cant": "unbounded sequences; off-by-one depends on capacity rounding", "anchors": ["q_lib/include/q/fx/delay.hpp: basic_delay::operator()"]}
{"id": "C05", "title": "Fractional reads interpolate neighbours", "statement": "Reading a fractional ring buffer at index i returns the linear blend of the two neighbouring samples; at integer i exactly that sample; the result always lies between the two neighbours, for every i in [0,capacity-1].", "quantifier": "every buffer content, capacity, real index", "why_tests_cant": "continuum of indices and contents", "anchors": ["q_lib/include/q/utility/fractional_ring_buffer.hpp", "q_lib/include/q/utility/interpolation.hpp: linear_interpolate"]}
{"id": "C06", "title": "One- and two-sample delays, differentiators, integrator", "statement": "delay1 returns the previous sample, delay2 the one before; differentiator returns s[n]-s[n-1]; central_difference returns (s[n]-s[n-2])/2; integrator returns gain times the running sum of all inputs.", "quantifier": "every input sequence of any length", "why_tests_cant": "holds for unbounded histories", "anchors": ["q_lib/include/q/fx/special.hpp: delay1, delay2, differentiator, central_difference, integrator"]}
{"id": "C07", "title": "Moving sum is the window sum", "statement": "After any inputs, the moving sum equals the sum of the last n inputs (missing ones counted as 0), with exact arithmetic, including integer sample types as long as no overflow occurs; fill(v) behaves as if n copies of v had been fed.", "quantifier": "every window n, every input sequence", "why_tests_cant": "incremental update must not drift for unbounded histories", "anchors": ["q_lib/include/q/fx/moving_average.hpp: moving_sum::operator(), fill"]}
{"id": "C08", "title": "Moving average is the window mean", "statement": "After any inputs the moving average is the mean of the last n inputs; for integer samples it is that mean rounded toward zero.", "quantifier": "every n, every input history (int and real sample types)", "why_tests_cant": "negative sums with particular n are rare in tests", "anchors": ["q_lib/include/q/fx/moving_average.hpp: basic_moving_average"]}
{"id": "C09", "title": "Exponential moving average stays in the input hull", "statement": "If all inputs and the initial value lie in [lo,hi], every output does; a constant input converges to itself (DC gain 1), for every period n≥1, including after the window has been changed at run time.", "quantifier": "every input sequence, n, bounds, run-time change", "why_tests_cant": "all histories", "anchors": ["q_lib/include/q/fx/moving_average.hpp: exp_moving_average, rt_exp_moving_average"]}
{"id": "C10", "title": "Moving maximum is the window maximum", "statement": "Each call returns the maximum of the last min(k,n) inputs, where k is the number of inputs so far, for every n≥1, provided inputs are not below the initial floor -3.40e38.", "quantifier": "every window n (power of two or not), every input sequence", "why_tests_cant": "tournament-tree invariants over unbounded history and all sizes", "anchors": ["q_lib/include/q/fx/moving_maximum.hpp: moving_maximum::operator()"]}
{"id": "C11", "title": "Median of three", "statement": "The median filter returns, for every history, the middle one of the last three samples: a permutation-invariant member of the three with at least one of the others on each side.", "quantifier": "every triple/history over a linear order", "why_tests_cant": "all values, ties", "anchors": ["q_lib/include/q/fx/median.hpp: median3"]}
{"id": "C12", "title": "Bit set/get round trip", "statement": "After set(i,v), get(i)=v and every other bit is unchanged, for every i below size().", "quantifier": "every bitset content, word type, index, value", "why_tests_cant": "all index/word-type combinations; failure only at particular bit positions", "anchors": ["q_lib/include/q/utility/bitset.hpp: bitset::set, get"]}
{"id": "C13", "title": "Range set touches exactly the range", "statement": "set(i,n,v) sets exactly the bits [i, min(i+n,size)) to v and leaves every other bit unchanged, for every i and every n for which i+n does not overflow std::size_t; an index beyond size() changes nothing.", "quantifier": "every content, start, length", "why_tests_cant": "all alignment combinations of start/end in words", "anchors": ["q_lib/include/q/utility/bitset.hpp: bitset::set(i,n,val)"]}
{"id": "C14", "title": "Bitset accesses are in bounds for every index", "statement": "No set/get call accesses memory outside the bitset, whatever the index.", "quantifier": "every index", "why_tests_cant": "boundary indices", "anchors": ["q_lib/include/q/utility/bitset.hpp: bitset::set, get"]}
{"id": "C15", "title": "Bitstream autocorrelation is a Hamming distance", "statement": "For a default (64-bit word) bitset of at least two words, acf(pos) equals the number of positions k in the compared range (half the bitset minus one word, at least one word) with bit k ≠ bit k+pos, and never reads outside the bitset, for every pos up to half the size.", "quantifier": "every bitset content, size, lag", "why_tests_cant": "all contents and lags; unaligned shifts", "anchors": ["q_lib/include/q/utility/bitstream_acf.hpp: bitstream_acf::operator()", "q_lib/include/q/detail/count_bits.hpp"]}
{"id": "C16", "title": "Zero-crossing edge store never overflows", "statement": "For every input signal, hysteresis and window the number of stored edges never exceeds the edge buffer's capacity, and the library's own assertion about it never fires.", "quantifier": "every sample sequence, hysteresis, window", "why_tests_cant": "requires an invariant over unbounded signals", "anchors": ["q_lib/include/q/utility/zero_crossing.hpp: zero_crossing::operator(), update_state"]}
{"id": "C17", "title": "Zero-crossing readiness protocol", "statement": "Whenever is_ready() holds after a sample, the signal state is low, at least two edges are stored, the edge store is not full and every stored edge is complete.", "quantifier": "every sample sequence", "why_tests_cant": "reachable states over unbounded histories", "anchors": ["q_lib/include/q/utility/zero_crossing.hpp: is_ready, reset, operator()"]}
{"id": "C18", "title": "Zero-crossing frame counter stays bounded", "statement": "The frame counter never exceeds a fixed bound in terms of the window, for any input, so edge positions never overflow.", "quantifier": "every sample sequence", "why_tests_cant": "unbounded run length", "anchors": ["q_lib/include/q/utility/zero_crossing.hpp: operator()"]}
{"id": "C19", "title": "Edges are well ordered", "statement": "Stored edges are disjoint pulses in time order: each edge's leading edge precedes its trailing edge and each later pulse starts after the previous one ended; thus every reported period between consecutive edges is positive and the ordering assertion in period() never fires.", "quantifier": "every sample sequence", "why_tests_cant": "ordering relies on the full history incl. shifting at window ends", "anchors": ["q_lib/include/q/utility/zero_crossing.hpp: info::period, fractional_period"]}
{"id": "C20", "title": "Zero-crossing hysteresis", "statement": "The detector's state goes high only on a sample above zero (plus offset) and goes low only on a sample below the hysteresis (or when the edge store is full or a pulse has lasted beyond twice the window); between thresholds it keeps its state.", "quantifier": "every sample sequence", "why_tests_cant": "all sequences", "anchors": ["q_lib/include/q/utility/zero_crossing.hpp: update_state"]}
{"id": "C21", "title": "Periodicity range", "statement": "The periodicity reported by the period detector is, at every moment of every run, in [0,1] or the flag -1 (window without two loud pulses covering both halves); harmonic(index) has the same range and never fails; the pitch detector's get_periodicity() is always in [0,1] and get_frequency() never negative.", "quantifier": "every signal, parameters, moment", "why_tests_cant": "all signals; extreme bit patterns are not covered by samples", "anchors": ["q_lib/include/q/pitch/period_detector.hpp: period_detector::autocorrelate, harmonic", "q_lib/include/q/pitch/pitch_detector.hpp: pitch_detector::operator()"]}
{"id": "C22", "title": "Bitstream of a pulse train", "statement": "When a call completes a window, bit k of bits() is set iff frame k lies within one of the stored pulses that reach the peak threshold.", "quantifier": "every signal, parameters, window, bit index", "why_tests_cant": "all pulse layouts, including pulses that straddle or precede the window", "anchors": ["q_lib/include/q/pitch/period_detector.hpp: period_detector::set_bitstream", "q_lib/include/q/utility/bitset.hpp: bitset::set"]}
{"id": "C23", "title": "Detector range validation", "statement": "Constructing a period detector throws iff the highest frequency is not above the lowest (for positive frequencies with representable periods).", "quantifier": "all parameter combinations", "why_tests_cant": "continuum of parameters", "anchors": ["q_lib/include/q/pitch/period_detector.hpp: period_detector::period_detector"]}
{"id": "C24", "title": "Period and pitch detection never go out of bounds", "statement": "Feeding any signal whatsoever to a constructed period or pitch detector never fails an assertion, reads or writes out of bounds (autocorrelation lags, edge store, bitstream), or overflows; predict_period() may be called at any time.", "quantifier": "every signal (including NaN), every parameters, every moment", "why_tests_cant": "any reachable combination of edges", "anchors": ["q_lib/include/q/pitch/period_detector.hpp: operator(), autocorrelate, sub_collector, predict_period", "q_lib/include/q/pitch/pitch_detector.hpp: operator()", "q_lib/include/q/utility/bitstream_acf.hpp"]}
{"id": "C25", "title": "Pitch detector acceptance rules", "statement": "While a pitch is reported, an estimate replaces it only if it is within 1/32, or harmonically related (then corrected to within 1/32, at least two frames after the last shift), or has periodicity at least 0.95 (a note shift); otherwise the pitch is kept. A pitch appears from silence only with periodicity at least 0.95, and disappears only on a reset of the edge detector or a window flagged as lacking loud pulses. Nothing changes between windows.", "quantifier": "every reachable state and every sample", "why_tests_cant": "all estimate sequences", "anchors": ["q_lib/include/q/pitch/pitch_detector.hpp: bias, operator(), calculate_frequency"]}
{"id": "C26", "title": "Dual pitch detector selection", "statement": "Each call of the dual detector reports the estimate of the two detectors closer to the running mean if both have one and it is within an octave of the mean (always for the first), zero if neither has one, and its previous value otherwise; the mean follows accepted estimates only. predict_frequency() never fails and returns the prediction of the first detector if both predict, the two differ by less than a tenth, and it is within an octave of the mean (or no estimate was accepted yet); 0 otherwise; a known prediction is returned unchanged.", "quantifier": "every signal and every moment of a run", "why_tests_cant": "an unbounded history behind the mean and both detectors", "anchors": ["q_lib/include/q/pitch/dual_pitch_detector.hpp: operator(), within_octave, compute_predicted_frequency, predict_frequency"]}
{"id": "C27", "title": "Phase accumulates modulo one turn", "statement": "After any sequence of ++ and -- on a phase_iterator the phase equals start + (number of ++ minus number of --)·increment modulo 2^32 and the increment is unchanged; -- undoes ++; the postfix forms return the old value; the phase returns to its start after n steps exactly when n·increment is a whole number of turns; changing the increment in the middle of a history never makes the phase jump and takes effect from the next step.", "quantifier": "every start, increment and sequence of steps", "why_tests_cant": "2^64 start/increment pairs times unbounded histories", "anchors": ["q_lib/include/q/support/phase.hpp: phase_iterator::operator++/--"]}
{"id": "C28", "title": "First/last flags mark each cycle exactly once", "statement": "last() holds at a sample iff the next step wraps, first() iff the previous step wrapped, so last() at one sample is first() at the next; over n samples exactly floor((p+n·d)/2^32) samples are flagged last().", "quantifier": "every phase, increment and run length", "why_tests_cant": "2^64 combinations times unbounded runs", "anchors": ["q_lib/include/q/support/phase.hpp: phase_iterator::first, last"]}
{"id": "C29", "title": "One-shot phase saturates", "statement": "After n one-shot increments the phase is min(end, p+n·d), after n decrements max(begin, p-n·d): it never wraps, reaches the end after exactly ceil(end/d) steps and stays there.", "quantifier": "every start, increment, step count", "why_tests_cant": "2^64 combinations times unbounded steps", "anchors": ["q_lib/include/q/support/phase.hpp: one_shot_phase_iterator"]}
{"id": "C30", "title": "Phase conversions", "statement": "Phase to double and back is the identity; a fraction f>=0 converts to floor(2^32 f) capped at the end (negative fractions assert); phase to float gives a value in [0,1] and converting back is defined and off by at most 128 units; for every frequency 0<=f<sps the increment is defined and n samples advance the phase by n·f/sps turns up to n(1+2^-21) units of 2^-32 turn.", "quantifier": "all 2^32 phases; all fractions; all frequencies and sample rates; all run lengths", "why_tests_cant": "2^32 phases, continuous inputs; rounding corner cases (float(p) can round up to 1.0)", "anchors": ["q_lib/include/q/support/phase.hpp: phase::phase(float/double/frequency), conversion operators"]}
{"id": "C31", "title": "Sawtooth stays bounded", "statement": "The naive saw, and the band-limited saw for every increment up to half a turn, stay within [-1,1] for every phase, including float rounding; at least one increment away from the discontinuity the two are equal; the naive saw is increasing and starts at -1.", "quantifier": "every phase and increment (2^64 pairs), every lawful rounding", "why_tests_cant": "2^64 combinations", "anchors": ["q_lib/include/q/synth/saw.hpp", "q_lib/include/q/utility/antialiasing.hpp: poly_blep"]}
{"id": "C32", "title": "Square wave stays bounded", "statement": "The naive square wave is +-1 and the band-limited square output stays within [-1,1] for every phase and every increment below half a turn. (FALSE in the code at phases 2^31-1 and 2^31: the output there is about -2.)", "quantifier": "every phase, increment", "why_tests_cant": "2^64 combinations; failure only at 2 of 2^32 phases", "anchors": ["q_lib/include/q/synth/square.hpp", "q_lib/include/q/utility/antialiasing.hpp: poly_blep"]}
{"id": "C33", "title": "Pulse wave stays bounded", "statement": "The naive pulse is +-1, high for exactly the phases below the width, and the band-limited pulse stays within [-1,1] for every phase, and width at least one increment from either end. (FALSE in the code at the phase equal to the width: the output is -2.)", "quantifier": "every phase, increment, width", "why_tests_cant": "2^96 combinations; failure at a single phase", "anchors": ["q_lib/include/q/synth/pulse.hpp", "q_lib/include/q/utility/antialiasing.hpp: poly_blep"]}
{"id": "C34", "title": "Triangle waves stay bounded and are defined", "statement": "The naive and (for increments up to a quarter turn) band-limited triangle outputs are defined and within [-1,1] for every phase, and the naive one is symmetric. (FALSE in the code at one phase each: abs(INT_MIN) at phase 2^31, resp. 2^30+1, is a signed overflow.)", "quantifier": "every phase, increment", "why_tests_cant": "one undefined phase out of 2^32", "anchors": ["q_lib/include/q/synth/triangle.hpp", "q_lib/include/q/utility/antialiasing.hpp: poly_blamp"]}
{"id": "C35", "title": "Sine oscillator accuracy", "statement": "For every phase the sine oscillator reads inside its table, returns a value in [-1,1], and is within 5e-6 of the true sine of 2*pi*phase/2^32, float rounding included.", "quantifier": "all 2^32 phases, every lawful rounding", "why_tests_cant": "2^32 values compared with a real-valued function", "anchors": ["q_lib/include/q/synth/sin.hpp", "q_lib/include/q/detail/sin_table.hpp", "q_lib/include/q/detail/table_lookup.hpp", "q_lib/include/q/support/base.hpp: linear_interpolate"]}
{"id": "C36", "title": "MIDI channel messages round trip", "statement": "Each channel-voice message constructed from a channel 0..15 and data bytes reads back the same channel and data, and survives the wire: packing its bytes into a raw message and dispatching it calls the handler of that message with an equal message. (The channel is not masked: channel 16 turns a note-off into a note-on.)", "quantifier": "all channels, data bytes, 16-bit bend values, and all values of the unused bytes of the raw message", "why_tests_cant": "2^32 raw messages and all field combinations", "anchors": ["q_lib/include/q/support/midi.hpp: message classes, dispatch"]}
{"id": "C37", "title": "MIDI 14-bit values round trip", "statement": "pitch_bend and song_position return every value below 2^14 unchanged with 7-bit-clean data bytes (values below 2^15 still read back), and from two 7-bit bytes give lsb+128*msb.", "quantifier": "every 16-bit value; every pair of 7-bit bytes", "why_tests_cant": "all values, not samples", "anchors": ["q_lib/include/q/support/midi.hpp: pitch_bend, song_position"]}
{"id": "C38", "title": "MIDI dispatch is total and correct", "statement": "Dispatching a raw message calls exactly the handler for its status byte, once, with the message's data bytes, for every status byte defined by MIDI, and nothing for undefined ones. (FALSE in the code: no system message is ever dispatched.)", "quantifier": "all 2^32 raw messages", "why_tests_cant": "failure affects whole families of status bytes", "anchors": ["q_lib/include/q/support/midi.hpp: dispatch"]}
{"id": "C39", "title": "Note name/number conversion", "statement": "A well-formed name (letter in either case, optional accidental, octave digit) converts to 12*(octave+1)+pitch class, every malformed one to -1 without undefined behaviour; note_name of each key is its pitch class and octave; converting back gives the key for keys 12..127. (FALSE in the code for a first character that is not a letter A-G: an uninitialised variable is read.)", "quantifier": "every string and every key", "why_tests_cant": "all strings", "anchors": ["q_lib/include/q/support/midi.hpp: note_number, note_name"]}
{"id": "C40", "title": "Note frequencies", "statement": "note_frequency is within relative error 1e-14 of equal temperament 440*2^((k-69)/12) for every key 9..119, exactly 440 at 69, doubles exactly every octave, is 0 outside, and agrees with the named constants of namespace notes. (FALSE in the code for the E-flat constants, which are wrong.)", "quantifier": "every key, every named constant; rounding included", "why_tests_cant": "rounding of products of roots of two, compared with real powers", "anchors": ["q_lib/include/q/support/midi.hpp: note_frequency", "q_lib/include/q/support/notes.hpp"]}
{"id": "C41", "title": "ADSR stages have the documented curve and finish", "statement": "After release() with the default note-off level, from every reachable state, the envelope is off at level 0 after finitely many samples and stays so, IEEE rounding included. In exact arithmetic each stage is the exponential curve towards its target (attack towards 1.6, decay to level*sustain, release to the note-off level) and ends at the first sample past the level, resp. within 0.0001 of it, with exactly the target value; with a note-off level of 0.0001 or more the release holds for ever; an attack towards a level of 1.6 or more never ends.", "quantifier": "every history of calls, every rate in [0,1), every level", "why_tests_cant": "termination over unbounded sample counts; rounding could stall a decay", "anchors": ["q_lib/include/q/synth/envelope.hpp: operator(), update_attack, update_decay, update_sustain, update_release, note_off_level"]}
{"id": "C42", "title": "ADSR envelope stays between 0 and the trigger level", "statement": "After every history of calls with valid arguments (time constants of at least 1.255 samples, sustain level in [0,1], non-negative note-off level and release coefficient), current() and the next output are between 0 and the largest trigger level used, IEEE rounding included.", "quantifier": "every history of trigger/legato/decay/release/setters/samples, all arguments", "why_tests_cant": "unbounded histories; rounding of each step", "anchors": ["q_lib/include/q/synth/envelope.hpp"]}
{"id": "C43", "title": "ADSR state transitions", "statement": "Only the documented state changes happen; only operator() changes current(); a trigger starts the attack exactly when its level is above the current one; while off the output is 0; no history reads uninitialised data; legato() glides to the sustain level. (FALSE in the code: legato() after a trigger with auto_decay=-1 reads an uninitialised member, and the legato glide jumps to its target in one sample.)", "quantifier": "every state, call and argument, arbitrary arithmetic", "why_tests_cant": "unbounded histories", "anchors": ["q_lib/include/q/synth/envelope.hpp"]}
{"id": "C44", "title": "Envelope followers bracket the signal", "statement": "For every sequence of samples, the peak envelope follower's output is never below the current sample and never above the largest sample seen so far (or the initial 0), and the attack/release follower's output moves towards the current sample without ever passing it, so it stays within the range of the samples seen; under a constant signal the distance decays geometrically with the configured coefficient. (FALSE in the code for time constants below 1.252 samples, where the coefficient is negative: with half a sample of release the output goes below -5 after the samples 1, 0.)", "quantifier": "every sequence of samples, attack, release and sample rate, IEEE rounding included", "why_tests_cant": "unbounded histories and a continuum of samples; rounding could push the output past the sample by one unit in the last place", "anchors": ["q_lib/include/q/fx/envelope.hpp: envelope_follower, peak_envelope_follower"]}
{"id": "C45", "title": "Time-constant coefficient is a valid smoothing coefficient", "statement": "For each time constant and sample rate, the smoothing coefficient computed by the fast exponential lies in [0,1). (FALSE in the code for time constants below 1.252 samples, where it is negative: half a sample gives about -5.7.)", "quantifier": "every duration and sample rate, rounding included", "why_tests_cant": "continuum of durations", "anchors": ["q_lib/include/q/support/base.hpp: fast_exp3", "q_lib/include/q/fx/envelope.hpp", "q_lib/include/q/synth/envelope.hpp"]}
{"id": "C46", "title": "Fast envelope follower holds exactly the recent peak", "statement": "With a hold time of P samples the fast envelope follower returns, at each call, the largest of the samples of the last div to div+1 hold periods (0 if all are negative): never less than the current sample or any sample held, never a stale older peak, for as long as the follower runs. (FALSE in the code: after 65537 hold periods a 16-bit counter wraps and peaks are held too long; hold times of 65536 samples and more are truncated.)", "quantifier": "every sequence of samples (any length), hold time and number of divisions", "why_tests_cant": "the counter wrap needs tens of thousands of hold periods; all histories", "anchors": ["q_lib/include/q/fx/envelope.hpp: basic_fast_envelope_follower, fast_envelope_follower"]}
{"id": "C47", "title": "Compressor never boosts", "statement": "The compressor's gain is exactly 0 dB at or below the threshold, never positive, and never increases when the level increases, rounding included; the resulting level follows threshold + ratio*(level - threshold) above the threshold, is monotone and never expands differences; changing threshold or ratio at run time is the same as constructing anew.", "quantifier": "every level, threshold and ratio in [0,1]", "why_tests_cant": "a continuum of levels and settings; rounding", "anchors": ["q_lib/include/q/fx/dynamic.hpp: compressor"]}
{"id": "C48", "title": "Soft-knee compressor joins the hard compressor smoothly", "statement": "Outside the knee the soft-knee compressor equals the hard compressor; inside it follows the quadratic knee curve; it is never above the hard compressor and at most (1-ratio)*width/8 below; its gain is never positive, is monotone and Lipschitz (no jump at the knee edges), and the resulting level is monotone; run-time setters are the same as constructing anew.", "quantifier": "every level, threshold, knee width and ratio in [0,1]", "why_tests_cant": "a continuum of levels and settings; rounding", "anchors": ["q_lib/include/q/fx/dynamic.hpp: soft_knee_compressor"]}
{"id": "C49", "title": "Expander only attenuates below threshold; AGC gain is capped", "statement": "The expander's gain is 0 dB at or above the threshold, never positive, monotone in the level, and below the threshold the level is lowered by ratio times the distance, strictly monotone; the automatic gain never exceeds its maximum and otherwise brings the level exactly to the reference.", "quantifier": "every level, threshold, reference and non-negative ratio", "why_tests_cant": "a continuum of levels and settings; rounding", "anchors": ["q_lib/include/q/fx/dynamic.hpp: expander, agc"]}
{"id": "C50", "title": "Noise gate hysteresis", "statement": "The gate is open exactly when the envelope exceeded the onset threshold since it was last below the release threshold; between the thresholds it keeps its state; the thresholds change only by the setters. The windowed gate opens only when the rise over the attack window exceeds the onset threshold. (FALSE in the code for the windowed gate: its comparison window is not fed while the gate is open.)", "quantifier": "every history of envelope samples and setter calls", "why_tests_cant": "unbounded histories", "anchors": ["q_lib/include/q/fx/noise_gate.hpp: basic_noise_gate"]}
{"id": "C51", "title": "Clipping", "statement": "clip is bounded by its maximum, the identity inside, saturating outside, idempotent, monotone and odd; soft_clip stays in [-1,1], keeps the sign, is odd and saturates at 1 (rounding included), and its curve is monotone with slope at most 3/2.", "quantifier": "every sample and maximum", "why_tests_cant": "2^32 samples per setting", "anchors": ["q_lib/include/q/fx/waveshaper.hpp: clip, soft_clip"]}
{"id": "C52", "title": "Comparators switch only on crossing a threshold", "statement": "The Schmitt trigger outputs true exactly when the last sample outside the hysteresis band was above it; the window comparator likewise (from either initial state), and its state changes only on a sample beyond a threshold or an explicit assignment.", "quantifier": "every history of samples, references and hysteresis settings", "why_tests_cant": "unbounded histories", "anchors": ["q_lib/include/q/fx/feature_detection.hpp: schmitt_trigger, window_comparator"]}
{"id": "C53", "title": "Monostable pulse width", "statement": "A trigger yields exactly n consecutive true outputs whatever the input during the pulse, and then false; with no trigger there is no pulse; stop() ends the pulse.", "quantifier": "every pulse width n, every input during the pulse", "why_tests_cant": "unbounded widths and histories", "anchors": ["q_lib/include/q/fx/special.hpp: monostable"]}
{"id": "C54", "title": "Edge, zero-cross and peak detectors", "statement": "rising_edge is true exactly on a false-to-true transition; zero_cross is true exactly when the last sample with magnitude above the hysteresis was positive; the peak detector is the Schmitt trigger against the scaled envelope.", "quantifier": "every history", "why_tests_cant": "unbounded histories", "anchors": ["q_lib/include/q/fx/feature_detection.hpp: zero_cross, peak", "q_lib/include/q/fx/special.hpp: rising_edge"]}
{"id": "C55", "title": "DC blocker removes DC", "statement": "The component removed from the signal always lies in the range of the input (and zero), so the output is bounded; a constant input decays geometrically to zero; the running sum of the outputs stays bounded for every bounded input (the mean of the output tends to zero); for every cut-off below the Nyquist frequency. (FALSE in the code above 0.159 of the sample rate for the range, above 0.318 for stability, where the pole leaves the unit circle; and the assignment from a number stores a truth value.)", "quantifier": "every input history, cut-off and sample rate", "why_tests_cant": "unbounded histories, a continuum of cut-offs", "anchors": ["q_lib/include/q/fx/special.hpp: dc_block"]}
{"id": "C56", "title": "One-pole low-pass and leaky integrators stay within the input range and converge", "statement": "For every sequence of samples, the one-pole low-pass and the leaky integrators keep their output within the range of the samples seen (and the initial value), and for a constant input the output converges to it geometrically (the fixed-point integrator: reaches it exactly), for every cut-off frequency below the Nyquist frequency. (FALSE in the code above 0.2542 of the sample rate, where the low-pass overshoots, above 0.4 it is unstable; and above 0.159 for the leaky integrator.)", "quantifier": "every sequence of samples, cut-off and sample rate, IEEE rounding included", "why_tests_cant": "unbounded histories, a continuum of cut-offs, accumulating rounding", "anchors": ["q_lib/include/q/fx/lowpass.hpp: one_pole_lowpass, leaky_integrator, fixed_pt_leaky_integrator"]}
{"id": "C57", "title": "All-pass filters preserve energy and only shift phase", "statement": "Every one-pole and polyphase all-pass filter satisfies an exact energy balance: the energy delivered never exceeds the energy received, and differs from it exactly by what is stored in the filter. Its response to a sinusoid of any frequency has gain exactly 1. The one-pole filter shifts by exactly 90 degrees at its pivot frequency (with the coefficient as computed in floating point by the fast tangent: at a frequency less than sps/9000 away, with |a|<1, for every pivot from sps/10000 to sps/2 - sps/10000). Each output of the Hilbert transformer obeys the same energy balance and has gain 1 at every frequency; at a quarter of the sample rate the two outputs are exactly in quadrature.", "quantifier": "every input history, initial state, input frequency and coefficient |a|<1", "why_tests_cant": "unbounded histories and a continuum of frequencies and coefficients; a statement about energy at every time", "anchors": ["q_lib/include/q/fx/allpass.hpp: one_pole_allpass, polyphase_allpass", "q_lib/include/q/fx/special.hpp: hilbert_quadrature"]}
{"id": "C58", "title": "Biquads implement their difference equation", "statement": "Every output of a biquad is y[n] = b0 x[n] + b1 x[n-1] + b2 x[n-2] - a1 y[n-1] - a2 y[n-2] of the whole history (zero before the start); the filter is linear and time invariant; reconfiguring a running filter applies the new coefficients to the old history.", "quantifier": "every history and all coefficients", "why_tests_cant": "unbounded histories", "anchors": ["q_lib/include/q/fx/biquad.hpp: biquad::operator(), biquad::config, config_biquad::config"]}
{"id": "C59", "title": "Biquads have the response of their analogue prototypes", "statement": "Every filter answers a sinusoid of any frequency, in the long run and from any state, with that sinusoid scaled and shifted by the bilinear transform of the Audio-EQ Cookbook prototype for its kind, frequency, quality factor or bandwidth, and gain. In particular: low-pass: DC unchanged, Nyquist removed, gain q at the cut-off; high-pass: the converse; band-pass: DC and Nyquist removed, gain q or 1 at the centre; notch: centre removed; all-pass: gain 1 everywhere; peaking and shelves: gain dB at the centre, DC, Nyquist. (FALSE in the code for the quality factor of the shelves, which is ignored.)", "quantifier": "every frequency, sample rate, q, bandwidth, gain, input frequency, phase and initial state", "why_tests_cant": "a continuum of settings and frequencies; a statement about the limit of an endless signal", "anchors": ["q_lib/include/q/fx/biquad.hpp: config_lowpass ... config_highshelf, lowpass ... highshelf"]}
{"id": "C60", "title": "Biquads are stable", "statement": "Every filter, for every frequency below the Nyquist frequency, positive quality factor or bandwidth and gain, gives a bounded output for every bounded input, from every state, and forgets its initial state; so does a reconfigured running filter.", "quantifier": "every filter kind and setting, bounded input, initial state", "why_tests_cant": "unbounded histories and a continuum of settings", "anchors": ["q_lib/include/q/fx/biquad.hpp"]}
{"id": "C61", "title": "Decibel conversions are safe, monotone and accurate", "statement": "For every float: converting an amplitude to decibel or back never reads outside the tables (whatever the rounding of the index), is monotone (also across the joints of the tables), saturates at +-121 dB (beyond 2^+-20) resp. 10^+-6 (beyond +-120 dB), and reciprocal amplitudes have opposite levels. The level differs from 20 log10 a by at most 0.0001 dB between 1/8 and 8, 0.02 dB between 1/1024 and 1024, 0.52 dB otherwise; the amplitude from 10^(d/20) by at most 25 parts in a million; both round trips are accurate accordingly.", "quantifier": "every float amplitude and every float level", "why_tests_cant": "2^32 arguments each way, transcendental reference functions, and index rounding that tests sample only", "anchors": ["q_lib/include/q/detail/db_table.hpp: a2db, db2a, db_table0, db_table1, db_table2, inv_db_table", "q_lib/include/q/support/base.hpp: linear_interpolate"]}
{"id": "C62", "title": "FFT computes the discrete Fourier transform", "statement": "fft<N>(data) replaces the N interleaved complex samples by their discrete Fourier transform sum_n x_n exp(-2 pi i p n / N), for every power of two N and every data; it reads and writes only the 2N elements. In double arithmetic, with the sines computed at compile time, every output is within N*2^-49 times the sum of the sample magnitudes of the exact value.", "quantifier": "every N=2^k (k<=30 for the rounded statement), every array, every bin", "why_tests_cant": "all sizes and all inputs; error bounds quantify over the continuum", "anchors": ["q_lib/include/q/fft/fft.hpp: fft, scramble, danielson_lanczos, sin, sin_cos_series", "q_lib/include/q/support/base.hpp: pi"]}
{"id": "C63", "title": "WAV memory delivers every frame in order", "statement": "Successive calls of the WAV player deliver the frames of the file in order, each exactly once, and frames of zeros after the end, never reading outside the buffer; restart() makes the next call deliver frame 0 again and seek(t) the frame at sample t. (FALSE in the code in the middle of a buffer: the frames already buffered are delivered first.)", "quantifier": "every file, number of channels, buffer size, number of calls and point at which restart or seek is called", "why_tests_cant": "file lengths, buffer sizes and call histories are unbounded; the failure depends on the call count modulo the buffer size", "anchors": ["q_io/include/q_io/audio_file.hpp: wav_memory", "q_io/src/audio_file.cpp: wav_reader::read, restart, seek", "q_io/external/include/dr_wav.h: drwav_read_f32, drwav_seek_to_sample"]}
{"id": "C64", "title": "Device lookup", "statement": "Listing devices returns exactly the host's devices that have a channel, each with its host id; listing again without a change of hardware returns the same list; a listing after a change reflects it; get(id) returns the device with that id. (FALSE in the code: get(id) fails as soon as a device without channels precedes, the audio list is refreshed only when the number of devices changes, and every MIDI listing appends all devices again.)", "quantifier": "every host configuration, id and number of listings", "why_tests_cant": "a test machine has one hardware configuration", "anchors": ["q_io/src/audio_device.cpp: get_devices, list, get", "q_io/src/midi_device.cpp: list"]}
{"id": "C65", "title": "Fast random generator", "statement": "Starting from any seed, the generator returns values from 0 to 32767, visits every one of its 2^32 states before repeating, and in one period returns each value exactly 131072 times.", "quantifier": "every seed and every number of calls", "why_tests_cant": "2^32 calls from each of 2^32 seeds", "anchors": ["q_lib/include/q/support/base.hpp: fast_rand"]}
{"id": "C66", "title": "Linear interpolation", "statement": "Interpolation returns the end points exactly at 0 and 1 and otherwise a value between the two; the mapping of [0,1] to a range does the same.", "quantifier": "every pair of values and position", "why_tests_cant": "continuum", "anchors": ["q_lib/include/q/utility/interpolation.hpp: linear", "q_lib/include/q/support/base.hpp: linear_interpolate", "q_lib/include/q/fx/special.hpp: map"]}
{"id": "C67", "title": "MIDI input processing", "statement": "Each event read from the device is dispatched exactly once, in order, with its time stamp; nothing is dispatched when nothing was read, the stream is invalid, or the device reports an error. (FALSE in the code on a device error: an uninitialised event is dispatched.)", "quantifier": "every sequence of device reads", "why_tests_cant": "device error returns are not reproducible in tests", "anchors": ["q_io/src/midi_stream.cpp: midi_input_stream::next", "q_lib/include/q/support/midi.hpp: dispatch"]}
{"id": "C68", "title": "Dynamic smoother stays within the input range and converges", "statement": "A dynamic smoother made with any base frequency below the Nyquist frequency and any sensitivity >= 0, and retuned at any time to any such frequency, delivers outputs that always lie in the range of the inputs seen and its initial state; for a constant input both stages converge to it geometrically. In float arithmetic, signals within [-2^k, 2^k] give outputs within [-2^k, 2^k] for ever.", "quantifier": "every history of samples and retunings, base frequency and sensitivity; IEEE rounding included for the range", "why_tests_cant": "unbounded histories with a signal-dependent coefficient", "anchors": ["q_lib/include/q/fx/special.hpp: dynamic_smoother"]}
{"id": "C69", "title": "Rounding errors do not build up in the filters", "statement": "Run for ever in binary32, every recursive filter stays within a fixed distance of the same filter in exact arithmetic: biquad (including the error of coefficients stored as float), leaky integrator, one-pole low-pass, DC blocker, exponential moving average, one-pole and polyphase all-pass, Hilbert transformer, resonant low-pass. The distance depends only on the coefficients and the signal bound, not on the length of the run. The moving sum is exact for ever on samples of a bounded number of bits (e.g. 24-bit audio with a double accumulator). Also claimed, and FALSE of the code: the moving sum of arbitrary float samples returns to zero after silence (a residue stays for ever; drift is at most linear in time).", "quantifier": "every signal bounded by B, of any length; every coefficient set with poles strictly inside the unit circle by a stated margin", "why_tests_cant": "round-off accumulates over unboundedly many samples; no finite run shows that it never exceeds a bound", "anchors": ["q_lib/include/q/fx/biquad.hpp: operator()", "q_lib/include/q/fx/lowpass.hpp: leaky_integrator, one_pole_lowpass, reso_filter", "q_lib/include/q/fx/special.hpp: dc_block, hilbert_quadrature", "q_lib/include/q/fx/allpass.hpp: one_pole_allpass, polyphase_allpass", "q_lib/include/q/fx/moving_average.hpp: basic_moving_sum, exp_moving_average"]}
{"id": "C70", "title": "Unit types behave like the quantities they stand for", "statement": "Frequencies, durations, phases and levels compute like the physical quantity. Converting a frequency to its period and back returns it within 1.001*2^-52 (exactly for powers of two, not for every value) and the conversion reverses the order; a literal such as 2.5_kHz or 10_ms denotes the written quantity within rounding; phases add, subtract and multiply by an integer modulo one turn and divide by an integer rounding down; comparing levels in decibel agrees with comparing the amplitudes they convert to, and adding decibels multiplies amplitudes within 100 ppm. Also claimed, and FALSE of the code: multiplying a phase by a floating-point factor wraps modulo one turn (it saturates at the end of the turn).", "quantifier": "every frequency between 2^-999 and 2^999 Hz, every literal, every phase and integer factor, every pair of levels in range", "why_tests_cant": "a continuum of values and 2^64 pairs of phases; rounding makes identities that hold on round numbers fail elsewhere", "anchors": ["q_lib/include/q/support/value.hpp", "q_lib/include/q/support/frequency.hpp", "q_lib/include/q/support/phase.hpp", "q_lib/include/q/support/decibel.hpp", "q_lib/include/q/support/literals.hpp"]}
{"id": "C71", "title": "Two-point average", "statement": "The 2-point average filter returns the mean of the current and the previous sample, for every input sequence.", "quantifier": "every input sequence", "why_tests_cant": "unbounded histories", "anchors": ["q_lib/include/q/fx/moving_average.hpp: moving_average2"]}
{"id": "C72", "title": "Stored zero-crossing edges are real pulses", "statement": "For every signal, each stored edge corresponds to an actual pulse of the detector's output: counting back from the current frame, the output was high from the leading edge up to the trailing edge, where it was low; an incomplete edge has been high since its leading edge. The crossing stored with it is the (offset) sample before the pulse and its first sample, the peak is the largest sample of the pulse, and the width the distance to the first sample below 30% of the peak so far (0 if there is none).", "quantifier": "every sample sequence, hysteresis, window, stored edge", "why_tests_cant": "relates stored positions and pulse data to the whole output history, across unboundedly many window shifts and resets", "anchors": ["q_lib/include/q/utility/zero_crossing.hpp: operator(), update_state, update_peak, shift, operator[]"]}
{"id": "C73", "title": "Fast downsampler", "statement": "Every output of the 2:1 downsampler is x[2k-1]/4 + x[2k]/2 + x[2k+1]/4 of the input stream (zero before the start); for integer samples the output never exceeds the magnitude bound of the input.", "quantifier": "every input stream", "why_tests_cant": "unbounded histories", "anchors": ["q_lib/include/q/fx/special.hpp: fast_downsample"]}
{"id": "C74", "title": "Resonant low-pass filter is stable", "statement": "For every cut-off parameter between 0 and 2 (excluding 1, where a division by zero occurs) and resonance in [0,1), the resonant low-pass gives a bounded output for every bounded input from every state, forgets its initial state, and passes a constant unchanged in the limit; setting the cut-off and the resonance in either order keeps the feedback coefficient consistent. A cut-off frequency from sps/20000 to 0.1666 sps gives a coefficient strictly between 0 and 1, as computed in floating point by the fast sine.", "quantifier": "every cut-off parameter and resonance, bounded input, initial state", "why_tests_cant": "unbounded histories and a continuum of settings", "anchors": ["q_lib/include/q/fx/lowpass.hpp: reso_filter"]}
{"id": "C75", "title": "Pulse peak covers the last two windows", "statement": "peak_pulse() is the largest (hysteresis-offset) sample fed since the beginning of the previous analysis window (0 if none is positive): never an older one, never less than a more recent one. Windows are delimited by the calls made on a ready detector.", "quantifier": "every sample sequence, hysteresis and window", "why_tests_cant": "depends on the history across unboundedly many windows", "anchors": ["q_lib/include/q/utility/zero_crossing.hpp: operator(), update_state, peak_pulse"]}
{"id": "C76", "title": "What a period estimate means", "statement": "When a call completes a window, the reported period and periodicity are the flag -1 if there are fewer than two loud pulses (peak at least 60% of the pulse peak) or they do not spread over both halves of the window, or nothing is found, or they come from two loud pulses: the period is the interpolated distance of their crossings divided by an integer between 1 and highest/lowest, where the distance of their leading edges lies between the minimum period and half the window, and the periodicity is one minus the fraction of mismatches of the bitstream at that lag (refined to a local minimum for lags below 32).", "quantifier": "every signal, frequency range, sample rate, hysteresis and completed window", "why_tests_cant": "the search runs over all pairs of stored pulses and lags; histories are unbounded", "anchors": ["q_lib/include/q/pitch/period_detector.hpp: autocorrelate, set_bitstream, collector, sub_harmonic, period_of", "q_lib/include/q/utility/bitstream_acf.hpp"]}
{"id": "C77", "title": "Period prediction", "statement": "predict_period() never fails in any history of samples and predictions; it returns -1 or a period above the minimum period: the interpolated distance of the latest loud pulse to the latest loud pulse before it that is further than the minimum period away. Asking again gives the same answer and changes nothing; asking never changes what later samples do.", "quantifier": "every interleaving of samples and predictions, every floating-point semantics for the rule", "why_tests_cant": "unbounded interleavings of two calls that share state", "anchors": ["q_lib/include/q/pitch/period_detector.hpp: predict_period, minimum_period"]}
{"id": "C78", "title": "Signal conditioner", "statement": "For every valid configuration and every history of samples and threshold changes the signal conditioner never fails; each output has the sign of the sample and is at most the sample times the make-up gain; a signal that never exceeds the onset threshold is muted to exactly 0; and the output is the sample times the gate envelope times a gain within 45 ppm (envelope in [1/8,8]; 0.3 % in [1/1024,1024]; 7 % in 2^+-20) of make-up gain times the ideal compressor gain for the measured level. The band-limited conditioner is the plain one applied to the difference of two low-passed signals and at most doubles the bound.", "quantifier": "every configuration with time constants of at least 1.255 samples and ratio in [0,1], every sample history interleaved with setters", "why_tests_cant": "unbounded histories; composition of five stateful processors and two lookup tables under rounding", "anchors": ["q_lib/include/q/fx/signal_conditioner.hpp: signal_conditioner, bl_signal_conditioner", "q_lib/include/q/fx/noise_gate.hpp", "q_lib/include/q/fx/dynamic.hpp: compressor", "q_lib/include/q/support/decibel.hpp"]}
{"id": "C79", "title": "Level crossfade", "statement": "level_crossfade returns the first input exactly when the control level is at or above the pivot; below it, a mix x a + (1-x) b with x = 10^((control-pivot)/20) (within 30 ppm down to -120 dB), between the two inputs up to 2^-22 of the larger one.", "quantifier": "every pair of samples, pivot and control level", "why_tests_cant": "a continuum of levels and samples, rounded in two precisions", "anchors": ["q_lib/include/q/fx/special.hpp: level_crossfade", "q_lib/include/q/support/decibel.hpp"]}
{"id": "C80", "title": "Smoothed and RMS envelope followers", "statement": "The smoothed follower never fails for a hold of at least one sample; its output is the mean of the last hold outputs of the fast follower, between 0 and the largest sample, and exactly the level of a constant signal after hold samples. The RMS follower never fails, reads between -60.5 and 60.5 dB, never decreases when the smoothed square grows, and reads the level of its square root within half the table error (-60.5 dB below 10^-6).", "quantifier": "every signal, hold and accumulator rounding", "why_tests_cant": "unbounded histories; the level is a table lookup over a continuum", "anchors": ["q_lib/include/q/fx/envelope.hpp: basic_smoothed_fast_envelope_follower, fast_rms_envelope_follower", "q_lib/include/q/fx/moving_average.hpp"]}
{"id": "C81", "title": "Fast reciprocal and division", "statement": "For every non-zero finite float x in the normal range, fast_inverse(x) is a finite number of the same sign within 5.1 % of 1/x, and fast_div(a, x) within 5.1 % of a/x. (FALSE in the code for every negative x, where a signed subtraction overflows, and above 2^126.9, where the result is negative or not a number.)", "quantifier": "every one of the finite bit patterns of a float", "why_tests_cant": "2^32 inputs (times 2^32 for the division); the error depends on the mantissa and the behaviour on the sign and exponent", "anchors": ["q_lib/include/q/support/base.hpp: fast_inverse, fast_div"]}
{"id": "C82", "title": "Fast logarithms", "statement": "For every positive normal float x, fast_log2(x) is between 0.0294 below and 0.0574 above log2(x), and fast_log10(x) is within 0.0174 of log10(x), rounding included.", "quantifier": "every positive normal bit pattern", "why_tests_cant": "2^31 inputs and a transcendental function", "anchors": ["q_lib/include/q/support/base.hpp: fast_log2, fast_log10", "q_lib/include/q/detail/fast_math.hpp: fasterlog2"]}
{"id": "C83", "title": "Fast powers", "statement": "fast_pow2(p) is a finite number within 4 % of 2^p for every p for which 2^p is a normal float, does not underflow to zero below that, and is defined for every p; fast_pow10(x) is within 5 % of 10^x. (FALSE in the code: above 129.06 fast_pow2 returns a negative number or a NaN and from 386 the conversion is undefined; fast_pow10 is more than 7 % too small from x = 10.)", "quantifier": "every exponent, rounding included", "why_tests_cant": "continuum of exponents and a transcendental function; failures outside the usual range", "anchors": ["q_lib/include/q/support/base.hpp: fast_pow2, fast_pow10", "q_lib/include/q/detail/fast_math.hpp: fasterpow2, fasterpow"]}
{"id": "C84", "title": "Fast sine and tangent are accurate and odd", "statement": "For every angle in [-pi, pi] the fast sine, rounding included, is within 1e-4 of the sine, and it is exactly odd. For every angle of modulus at most 0.8 the fast tangent is within 3.3e-4 of the tangent. The cut-off coefficient of the resonant filter is within 2.1e-4 of 2 sin(pi f / sps) for every frequency up to half the sample rate.", "quantifier": "every float angle in the stated intervals; every frequency and sample rate", "why_tests_cant": "a continuum of angles; tests sample a few", "anchors": ["q_lib/include/q/detail/fast_math.hpp: fastsin, fasttan", "q_lib/include/q/fx/lowpass.hpp: reso_filter", "q_lib/include/q/fx/allpass.hpp: one_pole_allpass"]}
{"id": "C85", "title": "Taylor exponentials are accurate", "statement": "For every |x| <= 1, fast_exp3 ... fast_exp9, rounding included, are within the remainder of the Taylor series of their order (a constant times |x|^(n+1)) plus 4e-6 of the exponential.", "quantifier": "every float x with |x| <= 1, each of the seven functions", "why_tests_cant": "a continuum of arguments", "anchors": ["q_lib/include/q/support/base.hpp: fast_exp3, fast_exp4, fast_exp5, fast_exp6, fast_exp7, fast_exp8, fast_exp9"]}
{"id": "C86", "title": "Rational tanh: accurate, odd, bounded", "statement": "On [-3,3] fast_rational_tanh, rounding included, is within 0.0251 of tanh, is exactly odd, and its modulus is at most 1; without rounding it is increasing and equals tanh(3 artanh(x/3)). (FALSE in the code: 3 - 2^-22 gives 1 + 2^-23; the bound 1 + 1.4e-6 holds.)", "quantifier": "every float x with |x| <= 3", "why_tests_cant": "a continuum of arguments; the values above 1 occur at isolated floats", "anchors": ["q_lib/include/q/support/base.hpp: fast_rational_tanh"]}
{"id": "C87", "title": "Polynomial tangent is accurate", "statement": "For every angle of modulus at most pi/4 fast_tan, rounding included, is within 9.1e-4 of the tangent, and it is exactly odd.", "quantifier": "every float x with |x| <= 0.7854", "why_tests_cant": "a continuum of arguments", "anchors": ["q_lib/include/q/support/base.hpp: fast_tan"]}
{"id": "C88", "title": "Interpolation stays between its end points; tolerance comparisons do not reject close numbers", "statement": "linear_interpolate(y1, y2, mu) with 0 <= mu < 1 lies between y1 and y2 in rounded arithmetic, and is y1 for mu = 0 and y2 for mu = 1. abs_within and rel_within are symmetric and accept every pair within the tolerance; abs_within with tolerance 0 is equality; on int it is correct whenever the numbers are less than 2^31 apart. (FALSE in the code: mu = 1 between 1 and 2^-26 gives 0; int comparison of numbers 2^31 or more apart overflows.)", "quantifier": "every pair of floats, every mu in [0,1), every tolerance; every pair of ints", "why_tests_cant": "every rounding pattern", "anchors": ["q_lib/include/q/support/base.hpp: linear_interpolate, abs_within, rel_within"]}
{"id": "C89", "title": "Audio and MIDI streams: opening, callbacks, closing", "statement": "Opening an audio stream asks the host once for exactly the channels, rate and buffer size requested (default rate: that of the device it plays on); the stream is then valid, or invalid with the host's error text. Each host callback calls exactly one overload of process(), the one for the directions opened, with exactly the channels and samples delivered. For every sequence of member calls, each start and stop is passed on once, in order, queries return what the host says, nothing is asked of the host for an invalid stream (which reports neutral values), and a stream that opened is closed exactly once, by the destructor. (FALSE in the code: an output-only stream without explicit rate uses the input device's rate, and dereferences a null pointer when there is no input device; error() on a valid stream reads an uninitialised pointer; channel counts from 2^31 are truncated.)", "quantifier": "every host behaviour, channel configuration, sequence of member calls and callback", "why_tests_cant": "the host's answers and the sequences of calls are unbounded; the sandbox of a test has one audio device", "anchors": ["q_io/src/audio_stream.cpp: port_audio_stream, audio_stream_callback1, audio_stream_callback2, audio_stream_callback3", "q_lib/include/q/support/audio_stream.hpp: audio_channels", "q_io/src/midi_stream.cpp: midi_input_stream, input_stream_init"]}
{"id": "C90", "title": "WAV files round-trip bit-exactly", "statement": "Samples written with the WAV writer in any sequence of write calls, once the writer is closed, are read back by the WAV reader with the same bits, in the same order, with the same channel count, sampling rate and total length, by any sequence of reads of any sizes interleaved with any restarts and seeks. (FALSE in the code for 16384 channels or more, for 0 channels or rate 0, and for 4 GiB of data or more.)", "quantifier": "every channel count, sampling rate, sequence of writes, samples of any bits, and sequence of reads, restarts and seeks", "why_tests_cant": "sample values, lengths, channel counts and the splitting into calls are unbounded combinations; the failures need huge files or channel counts", "anchors": ["q_io/src/audio_file.cpp: wav_writer, wav_reader", "q_io/external/include/dr_wav.h: drwav_init_write__internal, drwav_write_raw, drwav_uninit, drwav_init, drwav_read_f32, drwav_seek_to_sample"]}
{"id": "C91", "title": "A crash while writing a WAV file loses samples but never corrupts them", "statement": "If the program stops at any point while writing or closing a WAV file, then opening the file afterwards fails or delivers a prefix of the samples written, never other samples; before the closing begins it delivers none.", "quantifier": "every byte-granular prefix of the writer's sequence of file operations, for every channel count, rate and sequence of writes", "why_tests_cant": "crash points are as many as there are bytes written", "anchors": ["q_io/src/audio_file.cpp: wav_writer", "q_io/external/include/dr_wav.h: drwav_init_write__internal, drwav_write_raw, drwav_uninit, drwav_init"]}
{"id": "C92", "title": "Opening any file is safe and reads exactly its data chunk", "statement": "Opening a file of arbitrary bytes terminates and either fails or gives a reader; every read delivers the next samples of the data chunk and nothing else, restart returns to its first sample and seek(t) to sample t; chunks other than fmt and data are skipped. (FALSE in the code: a fact chunk of at most 2 bytes makes the file unreadable, seek asserts if the data size is not a multiple of the sample size, position() divides by zero for ADPCM, and integer samples of more than 4096 bytes deliver nothing.)", "quantifier": "every byte sequence (any length, truncated or malformed), every sequence of reads and restarts", "why_tests_cant": "the input space is all byte strings", "anchors": ["q_io/src/audio_file.cpp: wav_reader", "q_io/external/include/dr_wav.h: drwav_init, drwav__read_fmt, drwav__read_chunk_header, drwav__seek_forward, drwav_read_raw, drwav_read_f32, drwav_seek_to_sample"]}
{"id": "C93", "title": "PCM samples convert to the right floats", "statement": "Reading integer PCM files gives floats in [-1,1], monotone in the stored sample; 16- and 24-bit samples are converted exactly (value / 2^15 or 2^23), 32-bit samples to the nearest float, all within 2^-23 of the stored value, and silence is 0. (FALSE in the code for 8-bit files: silence, stored as 128, reads as more than 0.003 and no 8-bit sample reads as 0.)", "quantifier": "every sample of every width from 8 to 64 bits", "why_tests_cant": "2^32 samples of one width alone, 2^64 of the other", "anchors": ["q_io/external/include/dr_wav.h: drwav_u8_to_f32, drwav_s16_to_f32, drwav_s24_to_f32, drwav_s32_to_f32, drwav__pcm_to_f32"]}
{"id": "C94", "title": "A-law, mu-law and floating-point samples convert to the right floats", "statement": "Reading a G.711 A-law or mu-law file delivers one sample per byte of the data chunk, in order: the value of the ITU-T G.711 expansion divided by 2^15, exactly, strictly between -1 and 1. 32-bit floating-point samples are delivered unchanged, 64-bit ones as the nearest float, monotonically. (FALSE in the code for A-law and mu-law files that declare more than one byte per sample: consecutive bytes are taken as samples and the rest is skipped.)", "quantifier": "every byte, every data chunk, every sequence of reads; every finite 64-bit number", "why_tests_cant": "2^64 samples; all sequences of reads", "anchors": ["q_io/external/include/dr_wav.h: drwav__alaw_to_s16, drwav__mulaw_to_s16, drwav_alaw_to_f32, drwav_mulaw_to_f32, drwav__ieee_to_f32, drwav_read_f32"]}
{"id": "C95", "title": "IMA ADPCM files decode as the format prescribes", "statement": "Reading an IMA (DVI) ADPCM file, mono or stereo, delivers exactly the samples the format prescribes for its blocks, in order, each once, however the reads are cut; length() is their number; seek(t) goes to sample t, restart() to the first; no file makes the reader access memory out of bounds. (FALSE in the code: restart and backward seeks inside a block continue with the samples cached from that block, a step index above 88 in a block header reads outside the table, a truncated file delivers stale samples up to the announced length.)", "quantifier": "every IMA ADPCM file, every sequence of reads, seeks and restarts", "why_tests_cant": "unbounded files and call sequences; decoding is stateful, so every prefix matters", "anchors": ["q_io/external/include/dr_wav.h: drwav_read_s16__ima, drwav_read_f32__ima, drwav_seek_to_first_sample, drwav_seek_to_sample, drwav_init", "q_io/src/audio_file.cpp: wav_reader"]}
{"id": "C96", "title": "Microsoft ADPCM files decode as the format prescribes", "statement": "Reading a Microsoft ADPCM file, mono or stereo, delivers exactly the samples the format prescribes for its blocks, in order, each once, however the reads are cut; length() is their number; seek(t) goes to sample t, restart() to the first; no file makes the reader access memory out of bounds or overflow. (FALSE in the code: restart and backward seeks inside a block continue with the samples cached from that block, a predictor above 6 in a block header reads outside the tables, and the step can grow until a signed multiplication overflows.)", "quantifier": "every Microsoft ADPCM file, every sequence of reads, seeks and restarts", "why_tests_cant": "unbounded files and call sequences; decoding is stateful, so every prefix matters", "anchors": ["q_io/external/include/dr_wav.h: drwav_read_s16__msadpcm, drwav_read_f32__msadpcm, drwav_seek_to_first_sample, drwav_seek_to_sample, drwav_init", "q_io/src/audio_file.cpp: wav_reader"]}
{"id": "C97", "title": "The period detector measures a periodic signal exactly", "statement": "Feed a period detector a periodic signal of any shape that makes one pulse (rise above +hysteresis/2, later fall below -hysteresis/2) per period of N samples, with sps/N between the lowest and the highest frequency. Fresh detector: every call succeeds; from the first completed analysis on, the reported period is exactly N and the periodicity 1, for as long as the signal lasts; an analysis is completed at least once in any window-plus-one-pulse consecutive calls. Detector with any history (any earlier samples, the train starting at any phase): after at most eleven windows of the train the detector again reports exactly N with periodicity 1, for as long as the train lasts. predict_period(), asked for after any samples of the train, answers -1 or exactly N, and N if first asked after an analysis. (FALSE in the code for windows of 320 samples and periods above 128: a 100 Hz train of 1 ms pulses at 16 kHz is never reported. The part about predictions is FALSE at the highest frequency itself, where the prediction is an octave too low.)", "quantifier": "every detector configuration, every pulse train in its range (any shape, any period, any position of the pulse), every history before it, every number of calls", "why_tests_cant": "infinitely many wave shapes, periods and histories, runs of any length; the interplay of window shifts, edge storage, thresholds, bit patterns and search", "anchors": ["q_lib/include/q/pitch/period_detector.hpp: operator(), set_bitstream, autocorrelate, sub_collector", "q_lib/include/q/utility/zero_crossing.hpp: operator(), update_state, shift", "q_lib/include/q/utility/bitstream_acf.hpp: operator()"]}
{"id": "C98", "title": "The pitch detectors report the pitch of a periodic signal", "statement": "Feed a pitch detector a periodic signal making one pulse per period of N samples, sps/N being in its range. Fresh detector: every call succeeds; nothing (0) is reported before the first analysis, and exactly sps/N with periodicity 1 from then on; an analysis is made at least once per window plus one pulse. Detector with any history: after eleven windows the pitch reported is sps/N times or divided by a whole number, with periodicity 1. Dual detector with any history, signal and negation both such trains: once both detectors inside report the pitch exactly and it is within an octave of the running mean, the dual detector reports exactly it from the next analysis on, for ever. Also claimed, and FALSE of the code: after any history the detectors report exactly sps/N (a pitch detector that has reported 400 Hz goes on reporting 400 Hz on a 200 Hz square wave for ever; a dual detector that has once reported 320 Hz never reports a 128 Hz square wave, even after silence).", "quantifier": "every detector configuration, every pulse train in its range (any shape, period, phase), every history before it, every number of calls", "why_tests_cant": "infinitely many wave shapes, periods and histories; the failures depend on what was heard long before", "anchors": ["q_lib/include/q/pitch/pitch_detector.hpp: operator(), bias", "q_lib/include/q/pitch/dual_pitch_detector.hpp: operator(), within_octave", "q_lib/include/q/pitch/period_detector.hpp: operator()"]}
{"id": "C99", "title": "The echo programs repeat the input at the delay asked for, and stay bounded", "statement": "The echo examples built on the delay line deliver, on the right channel, the input plus the feedback times the right channel of D samples earlier, and the input unchanged on the left, for every input, rounding included, however the host cuts the stream into callbacks; without rounding the right channel is the sum of fb^k times the input k D samples earlier. For inputs in [-1,1] it never exceeds 7 (feedback 0.85) or 2 (feedback 0.4). D is the delay asked for in samples. (FALSE in the code: D is the next power of two; 350 ms at 44100 Hz echoes after 16384 samples = 371.5 ms instead of 15435.)", "quantifier": "every input signal, delay, rate, feedback, every partition into callbacks (empty ones included), every number of samples", "why_tests_cant": "unbounded signals and partitions; the state crosses callback boundaries", "anchors": ["example/delay.cpp: delay_processor", "example/io_delay.cpp: delay_processor", "q_lib/include/q/fx/delay.hpp: delay, basic_delay"]}
{"id": "C100", "title": "The MIDI synthesizer: safe, bounded, silent when no key is held", "statement": "For every interleaving of MIDI messages and audio frames, at any rate from 8 kHz, the square-wave synthesizer example: never fails and writes one sample per frame, the same to both channels, in [-1,1]; writes only zeros before the first note-on; after the note-off of the key last pressed (or its note-on with velocity 0) falls exactly silent after some number of frames until the next note-on; and every note-on starts its note at its velocity. (FALSE in the code: a note-on with velocity 0 has no effect, a note-off before any note-on reads an uninitialised member, and a note softer than what is still fading is lost.)", "quantifier": "every sequence of raw MIDI messages and frames, every rate from 8 kHz, every envelope configuration with stages longer than 1.255 samples", "why_tests_cant": "interleavings of two threads and histories are unbounded; the end of the release is reached after a rounding-dependent number of steps", "anchors": ["example/square_synth.cpp: my_square_synth, my_midi_processor", "q_lib/include/q/synth/envelope.hpp: envelope", "q_lib/include/q/fx/lowpass.hpp: reso_filter::cutoff", "q_lib/include/q/fx/waveshaper.hpp: soft_clip", "q_lib/include/q/support/midi.hpp: dispatch, note_frequency"]}
{"id": "C101", "title": "The tone generator plays the frequency asked for", "statement": "The sine example built on the phase iterator and the sine table plays, at any rate and for any frequency below it, a sine of fixed frequency within sps/2^32 (1+2^-21) Hz of the one asked for: the n-th sample is sin(2 pi f' n/sps) to within 5e-6, in [-1,1], the same on both channels, rounding included, with no error build-up however long it runs; against the frequency asked for the phase drifts by at most (1+2^-21)/2^32 turns per sample. The samples do not depend on how the host cuts the stream into buffers. Frequencies at or above the rate are rejected by nothing and undefined.", "quantifier": "every frequency and sampling rate, every sequence of buffer sizes, every sample index", "why_tests_cant": "running time and buffer schedules are unbounded; drift shows only after long runs", "anchors": ["example/sin_synth.cpp: sin_synth", "q_lib/include/q/synth/sin.hpp: sin_synth", "q_lib/include/q/support/phase.hpp: phase_iterator, phase", "q_lib/include/q/detail/sin_table.hpp: sin_gen"]}
{"id": "C102", "title": "Wave64 files open safely and deliver exactly their data chunk", "statement": "Opening a file of arbitrary bytes that begins with the Wave64 identifier terminates and either fails or gives a reader positioned at the contents of a data chunk of the file; every sequence of reads delivers the samples of that chunk in order and nothing else, restart and seek behave like a tape; any other chunks before and after the format chunk are skipped, whatever their sizes. (FALSE in the code for the last part: the padding of a chunk is taken to be size mod 8, so chunks whose size is not a multiple of 4, such as the common 18-byte format chunk, make the file unreadable; and the sample count of a fact chunk is believed even if it contradicts the data chunk, after which position() is wrong and seek asserts.)", "quantifier": "every byte string; every list of chunks; every data chunk; every sequence of calls", "why_tests_cant": "All files; the files that fail are well-formed ones nobody put in a test directory", "anchors": ["q_io/external/include/dr_wav.h: drwav_init, drwav__read_chunk_header, drwav__read_fmt, drwav__seek_forward", "q_io/src/audio_file.cpp: wav_reader"]}
{"id": "C103", "title": "Compressors and expanders applied to a signal, feed-forward and feedback", "statement": "The documented use of the gain processors (measure an envelope, convert to decibel, apply the processor, convert back, multiply by the make-up gain and by the signal) never fails, never amplifies a sample beyond the make-up gain and never changes its sign, for a compressor, soft-knee compressor or expander, driven by the envelope of the input or of the output; a signal that stays below the threshold passes a compressor bit for bit (make-up gain apart), a sample at or above the threshold passes an expander bit for bit; above the threshold the factor is the ideal one for the measured level within stated tolerances. The feedback arrangement settles on an effective compression ratio of 1/(2 - ratio), not the nominal one.", "quantifier": "every float signal of every length; every threshold, ratio in [0,1], float make-up gain; every attack and release of at least 1.255 samples; every processor with gain of at most 0 dB", "why_tests_cant": "The feedback loop makes every output depend on all earlier ones; a test can listen to a few recordings", "anchors": ["q_lib/include/q/fx/dynamic.hpp: compressor, soft_knee_compressor, expander (documented usage)", "test/compressor_ff_fb.cpp, test/compressor_expander1.cpp", "q_lib/include/q/fx/envelope.hpp: envelope_follower, peak_envelope_follower", "q_lib/include/q/support/decibel.hpp"]}
{"id": "C104", "title": "Automatic gain control levels the delayed signal", "statement": "The documented use of the automatic gain control (an RMS follower measures the input, a delay line gives the level a head start, the gain processor with a maximum of 45 dB and a reference of -10 dB drives the delayed signal, a level crossfade blends in a 32-sample moving average at low levels) never fails; every leveled sample is the delayed input times a positive factor whose dB value is the reference minus the measured level, reduced again for levels below -55 dB so that silence is not amplified without bound; from -20 dB on the output is the leveled sample itself and below that a mix of it with the moving average, weighted by the level; and the look-ahead is the same half millisecond at every sampling rate.", "quantifier": "all signals, hold times, look-ahead lengths and rounding behaviours of the accumulators", "why_tests_cant": "The gain depends on the whole history of the signal through the follower and the delay line; recordings exercise a handful of level trajectories.", "anchors": ["test/agc.cpp::process", "q_lib/include/q/fx/dynamic.hpp::agc", "q_lib/include/q/fx/special.hpp::level_crossfade", "q_lib/include/q/fx/envelope.hpp::fast_rms_envelope_follower_db", "q_lib/include/q/fx/delay.hpp::nf_delay", "q_lib/include/q/fx/moving_average.hpp::moving_average"]}
{"id": "C105", "title": "The MIDI monitor prints every channel message, legibly and in order", "statement": "A monitor written as the documentation shows (a processor whose handlers print the message they are given, fed by an input stream in a loop) prints exactly one line for every channel message that arrives and nothing for anything else, in the order of arrival, and the text determines the messages: two histories print the same text only if they contain the same channel messages with the same channel and data bytes in the same order.", "quantifier": "all histories of reads from the device", "why_tests_cant": "A test checks the text of a few messages; that no two different histories look the same is a statement about all pairs of histories.", "anchors": ["example/midi_monitor.cpp::midi_processor", "q_lib/include/q/support/midi.hpp::dispatch", "q_io/include/q_io/midi_stream.hpp::process", "q_io/src/midi_stream.cpp::midi_input_stream::next"]}
{"id": "C106", "title": "Fast exponential, hyperbolic functions and natural logarithm", "statement": "The fast exponential is within 4.2 % of the exponential on [-87, 88]; the fast hyperbolic sine is exactly odd, the fast hyperbolic cosine exactly even, both accurate to 4.2 % of the hyperbolic cosine; the fast hyperbolic tangent of every number stays in [-1, 1] and within 0.022 of the true value; the fast natural logarithm of every normal positive number is within 0.041 of the true value. (FALSE in the code for the tangent of large negative numbers: the fast exponential overflows into the sign bit.)", "quantifier": "every float in the stated ranges, rounding included", "why_tests_cant": "Four billion arguments; the errors come from the bit-level construction of the result.", "anchors": ["q_lib/include/q/detail/fast_math.hpp::fasterexp", "q_lib/include/q/detail/fast_math.hpp::fastersinh", "q_lib/include/q/detail/fast_math.hpp::fastercosh", "q_lib/include/q/detail/fast_math.hpp::fastertanh", "q_lib/include/q/detail/fast_math.hpp::fasterlog"]}
