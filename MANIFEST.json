{
 "claims": [
  {
   "property": "C01",
   "status": "proved",
   "theorems": [
    "Verif.C01_recency"
   ],
   "note": ""
  },
  {
   "property": "C02",
   "status": "proved",
   "theorems": [
    "Verif.C02_capacity"
   ],
   "note": ""
  },
  {
   "property": "C03",
   "status": "proved",
   "theorems": [
    "Verif.C03_refines_circular_sequence"
   ],
   "note": ""
  },
  {
   "property": "C04",
   "status": "proved",
   "theorems": [
    "Verif.C04_delay_line",
    "Verif.C04_tap_at_capacity_wraps"
   ],
   "note": ""
  },
  {
   "property": "C05",
   "status": "proved",
   "theorems": [
    "Verif.C05_fractional_read",
    "Verif.C05_exact_and_hull",
    "Verif.C05_last_cell_wraps",
    "Verif.C05_negative_index_undefined",
    "Verif.C05_fractional_delay"
   ],
   "note": ""
  },
  {
   "property": "C06",
   "status": "proved",
   "theorems": [
    "Verif.C06_delay1",
    "Verif.C06_delay2",
    "Verif.C06_differentiator",
    "Verif.C06_central_difference",
    "Verif.C06_integrator"
   ],
   "note": ""
  },
  {
   "property": "C07",
   "status": "proved",
   "theorems": [
    "Verif.C07_moving_sum",
    "Verif.C07_feed"
   ],
   "note": ""
  },
  {
   "property": "C08",
   "status": "partial",
   "theorems": [
    "Verif.C08_real_mean",
    "Verif.C08_int_nonneg_partial",
    "Verif.C08_int_pow2_floor_partial",
    "Verif.C08_int_negative_violation"
   ],
   "note": "Proved for real samples; for int samples proved for non-negative sums and for power-of-two windows (rounds down). The code violates the property for negative sums: int is converted to size_t before the division (C08_int_negative_violation)."
  },
  {
   "property": "C09",
   "status": "partial",
   "theorems": [
    "Verif.C09_hull",
    "Verif.C09_constant_input",
    "Verif.C09_rt_dc_gain",
    "Verif.C09_rt_violation"
   ],
   "note": "Hull and convergence proved for exp_moving_average and rt_exp_moving_average without run-time change. After length()/width() the complementary coefficient is stale: DC gain is (n+1)/(m+1) (C09_rt_dc_gain) and the hull bound is violated (C09_rt_violation)."
  },
  {
   "property": "C10",
   "status": "proved",
   "theorems": [
    "Verif.C10_moving_maximum",
    "Verif.C10_window_zero"
   ],
   "note": ""
  },
  {
   "property": "C11",
   "status": "proved",
   "theorems": [
    "Verif.C11_median3f",
    "Verif.C11_permutation",
    "Verif.C11_median_filter"
   ],
   "note": ""
  },
  {
   "property": "C12",
   "status": "partial",
   "theorems": [
    "Verif.C12_set_get_partial",
    "Verif.C12_word64_bit31_violation",
    "Verif.C12_word64_upper_half_violation"
   ],
   "note": "Proved for every index of 8/16/32-bit bitsets and for positions 0-30 of each word of the default 64-bit bitset. The code violates it elsewhere: position 31 sets bits 31..63 (C12_word64_bit31_violation); positions 32..63 are an undefined shift (C12_word64_upper_half_violation)."
  },
  {
   "property": "C13",
   "status": "proved",
   "theorems": [
    "Verif.C13_set_range",
    "Verif.C13_clear",
    "Verif.C13_construct",
    "Verif.C13_overflow_violation"
   ],
   "note": "Restricted to i+n < 2^64 as stated; C13_overflow_violation shows the restriction is needed."
  },
  {
   "property": "C14",
   "status": "partial",
   "theorems": [
    "Verif.C14_in_bounds_partial",
    "Verif.C14_index_size_violation"
   ],
   "note": "Proved for every index except size() itself, where get and set access one word past the end (C14_index_size_violation)."
  },
  {
   "property": "C15",
   "status": "proved",
   "theorems": [
    "Verif.C15_acf",
    "Verif.C15_lag_zero",
    "Verif.C15_periodic",
    "Verif.C15_one_word_violation",
    "Verif.C15_narrow_violation"
   ],
   "note": "As stated (at least two 64-bit words); the violation theorems show what happens outside: one word, narrower words."
  },
  {
   "property": "C16",
   "status": "proved",
   "theorems": [
    "Verif.C16_no_overflow",
    "Verif.C16_window"
   ],
   "note": ""
  },
  {
   "property": "C17",
   "status": "proved",
   "theorems": [
    "Verif.C17_ready"
   ],
   "note": ""
  },
  {
   "property": "C18",
   "status": "proved",
   "theorems": [
    "Verif.C18_frame_bound"
   ],
   "note": ""
  },
  {
   "property": "C19",
   "status": "proved",
   "theorems": [
    "Verif.C19_ordered"
   ],
   "note": ""
  },
  {
   "property": "C20",
   "status": "proved",
   "theorems": [
    "Verif.C20_hysteresis"
   ],
   "note": ""
  },
  {
   "property": "C21",
   "status": "proved",
   "theorems": [
    "Verif.C21_periodicity",
    "Verif.C21_harmonic",
    "Verif.C21_pitch",
    "Verif.C21_periodicity_binary32",
    "Verif.C21_harmonic_binary32",
    "Verif.C21_pitch_binary32"
   ],
   "note": "Exact arithmetic; the theorems with suffix _binary32: in single precision."
  },
  {
   "property": "C22",
   "status": "partial",
   "theorems": [
    "Verif.C22_bitstream",
    "Verif.C22_stale_edge_sets_all",
    "Verif.C22_violation"
   ],
   "note": "Proved unless a qualifying stored pulse ended before the window began (C22_bitstream). In that case the code sets the whole bitstream (C22_stale_edge_sets_all), which is reachable (C22_violation)."
  },
  {
   "property": "C23",
   "status": "proved",
   "theorems": [
    "Verif.C23_validation",
    "Verif.C23_never_constructed"
   ],
   "note": ""
  },
  {
   "property": "C24",
   "status": "partial",
   "theorems": [
    "Verif.C24_search_in_bounds",
    "Verif.C24_predict",
    "Verif.C24_violation_bad_cast",
    "Verif.C24_pitch_safe"
   ],
   "note": "All of it proved except one operation: the conversion of a quotient of periods (or frequencies) to int can be undefined; a concrete signal reaching it is C24_violation_bad_cast."
  },
  {
   "property": "C25",
   "status": "proved",
   "theorems": [
    "Verif.C25_rules",
    "Verif.C25_jump",
    "Verif.C25_drop",
    "Verif.C25_jump_binary32",
    "Verif.C25_drop_binary32"
   ],
   "note": "Exact arithmetic; the corollaries on jumps and drops also in single precision."
  },
  {
   "property": "C26",
   "status": "proved",
   "theorems": [
    "Verif.C26_rules",
    "Verif.C26_source",
    "Verif.C26_lockout",
    "Verif.C26_rules_binary32",
    "Verif.C26_source_binary32",
    "Verif.C26_lockout_binary32",
    "Verif.C26_prediction",
    "Verif.C26_prediction_on_loss"
   ],
   "note": "C26_rules/C26_source/C26_lockout: the pitch, in exact arithmetic and (suffix _binary32) in single precision; C26_prediction, C26_prediction_on_loss: the prediction, exact arithmetic."
  },
  {
   "property": "C27",
   "status": "proved",
   "theorems": [
    "Verif.C27_phase_modular",
    "Verif.C27_inverse",
    "Verif.C27_retune",
    "Verif.C27_periodic"
   ],
   "note": ""
  },
  {
   "property": "C28",
   "status": "proved",
   "theorems": [
    "Verif.C28_flags",
    "Verif.C28_last_first",
    "Verif.C28_one_flag_per_cycle"
   ],
   "note": ""
  },
  {
   "property": "C29",
   "status": "proved",
   "theorems": [
    "Verif.C29_saturates",
    "Verif.C29_reaches_end"
   ],
   "note": ""
  },
  {
   "property": "C30",
   "status": "proved",
   "theorems": [
    "Verif.C30_double_roundtrip",
    "Verif.C30_fraction",
    "Verif.C30_float_roundtrip",
    "Verif.C30_frequency",
    "Verif.C30_violation_frequency"
   ],
   "note": "As stated for f < sps; C30_violation_frequency shows that f >= sps saturates instead of wrapping."
  },
  {
   "property": "C31",
   "status": "proved",
   "theorems": [
    "Verif.C31_saw_bounded",
    "Verif.C31_saw_monotone"
   ],
   "note": ""
  },
  {
   "property": "C32",
   "status": "partial",
   "theorems": [
    "Verif.C32_square_bounded_partial",
    "Verif.C32_violation",
    "Verif.C32_half"
   ],
   "note": "Proved for every phase except 2^31-1 and 2^31, where the code violates it: at 2^31 the output is exactly -2 for every increment (C32_violation)."
  },
  {
   "property": "C33",
   "status": "partial",
   "theorems": [
    "Verif.C33_pulse_bounded_partial",
    "Verif.C33_violation",
    "Verif.C33_duty_cycle"
   ],
   "note": "Proved for every phase except the one equal to the pulse width, where the output is exactly -2 (C33_violation)."
  },
  {
   "property": "C34",
   "status": "partial",
   "theorems": [
    "Verif.C34_basic_triangle_partial",
    "Verif.C34_triangle_partial"
   ],
   "note": "Proved for every phase but one; at that phase the code computes abs(INT_MIN), undefined (second conjunct of each theorem). Band-limited version for increments up to a quarter turn."
  },
  {
   "property": "C35",
   "status": "proved",
   "theorems": [
    "Verif.C35_sine"
   ],
   "note": ""
  },
  {
   "property": "C36",
   "status": "proved",
   "theorems": [
    "Verif.C36_read_back",
    "Verif.C36_wire_round_trip",
    "Verif.C36_channel_not_masked"
   ],
   "note": ""
  },
  {
   "property": "C37",
   "status": "proved",
   "theorems": [
    "Verif.C37_value_round_trip",
    "Verif.C37_value_of_bytes"
   ],
   "note": ""
  },
  {
   "property": "C38",
   "status": "partial",
   "theorems": [
    "Verif.C38_channel_dispatch_partial",
    "Verif.C38_system_violation",
    "Verif.C38_all_raw_messages"
   ],
   "note": "Proved for every status byte below 0xF0. The code never dispatches any system message (C38_system_violation)."
  },
  {
   "property": "C39",
   "status": "partial",
   "theorems": [
    "Verif.C39_parse",
    "Verif.C39_malformed",
    "Verif.C39_bad_letter_violation",
    "Verif.C39_h4_violation",
    "Verif.C39_names",
    "Verif.C39_round_trip"
   ],
   "note": "Proved for every string whose first character is a note letter; any other first character followed by an accidental or a single digit reads an uninitialised variable (C39_bad_letter_violation)."
  },
  {
   "property": "C40",
   "status": "partial",
   "theorems": [
    "Verif.C40_equal_temperament",
    "Verif.C40_octave",
    "Verif.C40_anchor_and_range",
    "Verif.C40_note_constants_partial",
    "Verif.C40_eb_violation"
   ],
   "note": "Everything proved except the E-flat named constants, which are wrong in the code (C40_eb_violation)."
  },
  {
   "property": "C41",
   "status": "proved",
   "theorems": [
    "Verif.C41_release_finishes",
    "Verif.C41_attack_curve",
    "Verif.C41_attack_too_high_violation",
    "Verif.C41_decay_curve",
    "Verif.C41_sustain_curve",
    "Verif.C41_release_curve",
    "Verif.C41_note_off_level"
   ],
   "note": "As stated; C41_attack_too_high_violation is the stated last case (an attack level of 1.6 or more never ends)."
  },
  {
   "property": "C42",
   "status": "proved",
   "theorems": [
    "Verif.C42_output_bounds"
   ],
   "note": ""
  },
  {
   "property": "C43",
   "status": "partial",
   "theorems": [
    "Verif.C43_transitions",
    "Verif.C43_only_tick_moves",
    "Verif.C43_trigger",
    "Verif.C43_release",
    "Verif.C43_off_is_silent",
    "Verif.C43_legato_violation",
    "Verif.C43_legato_violation_reachable",
    "Verif.C43_no_uninitialised_read_partial",
    "Verif.C43_legato_jumps_violation"
   ],
   "note": "Transition relation, immutability of the level, trigger/release/off behaviour proved in full. Uninitialised read excluded for histories without auto_decay=-1 triggers; the code violates it otherwise (C43_legato_violation, reachable), and the legato glide is a jump (C43_legato_jumps_violation)."
  },
  {
   "property": "C44",
   "status": "partial",
   "theorems": [
    "Verif.C44_follower_hull",
    "Verif.C44_follower_between",
    "Verif.C44_peak",
    "Verif.C44_release_curve",
    "Verif.C44_short_release_violation",
    "Verif.C44_short_violation"
   ],
   "note": "Proved (IEEE rounding included) for time constants of at least 1.255 samples; the code violates it for every release below 1.252 samples (C44_short_violation)."
  },
  {
   "property": "C45",
   "status": "partial",
   "theorems": [
    "Verif.C45_coefficient_partial",
    "Verif.C45_short_violation",
    "Verif.C45_half_sample_violation"
   ],
   "note": "Proved (with rounding) for time constants of at least 1.255 samples; the code violates it for every time constant below 1.252 samples (C45_short_violation)."
  },
  {
   "property": "C46",
   "status": "partial",
   "theorems": [
    "Verif.C46_windowed_peak_partial",
    "Verif.C46_holds_peaks",
    "Verif.C46_counter_wrap_violation",
    "Verif.C46_hold_truncated_violation"
   ],
   "note": "Exact windowed-maximum characterisation proved for 65537 hold periods, and for ever if div+1 divides 65536; lower bounds proved for ever. The code violates the upper bound after the 16-bit counter wraps (C46_counter_wrap_violation) and truncates long hold times (C46_hold_truncated_violation)."
  },
  {
   "property": "C47",
   "status": "proved",
   "theorems": [
    "Verif.C47_never_boosts",
    "Verif.C47_output_level",
    "Verif.C47_setters",
    "Verif.C47_rounded"
   ],
   "note": "The level law is in exact arithmetic (C47_output_level); C47_rounded: the program stays within 1/100000 dB of it up to 120 dB above the threshold."
  },
  {
   "property": "C48",
   "status": "proved",
   "theorems": [
    "Verif.C48_never_boosts",
    "Verif.C48_hard_outside_knee",
    "Verif.C48_soft_knee_curve",
    "Verif.C48_setters",
    "Verif.C48_rounded"
   ],
   "note": "The curve theorems are in exact arithmetic; C48_rounded: the program, with its float and double roundings, stays within 1/100000 dB of the curve for levels up to 120 dB above the threshold, |threshold| <= 1024 dB and knees 1/100 to 100 dB wide."
  },
  {
   "property": "C49",
   "status": "proved",
   "theorems": [
    "Verif.C49_expander",
    "Verif.C49_expander_level",
    "Verif.C49_agc",
    "Verif.C49_agc_level",
    "Verif.C49_expander_rounded",
    "Verif.C49_agc_rounded"
   ],
   "note": "The level laws are in exact arithmetic (C49_expander_level, C49_agc_level); C49_expander_rounded and C49_agc_rounded: the program stays within 10^-11 dB of them."
  },
  {
   "property": "C50",
   "status": "partial",
   "theorems": [
    "Verif.C50_noise_gate",
    "Verif.C50_transitions",
    "Verif.C50_attack_window_violation",
    "Verif.C50_attack_window",
    "Verif.C50_attack_window_partial",
    "Verif.C50_attack_window_rounded",
    "Verif.C50_attack_window_float",
    "Verif.C50_tolerance_hour"
   ],
   "note": "basic_noise_gate proved in full. The windowed gate is characterised exactly for every history (C50_attack_window, exact arithmetic; C50_attack_window_float: the same answers in float arithmetic for envelopes of a bounded number of bits; C50_attack_window_rounded: for every float envelope up to an explicit tolerance on the onset, C50_tolerance_hour): it measures the rise over the calls made while closed, so the intended property is violated once the gate has been open (C50_attack_window_violation)."
  },
  {
   "property": "C51",
   "status": "proved",
   "theorems": [
    "Verif.C51_clip",
    "Verif.C51_soft_clip",
    "Verif.C51_soft_clip_curve"
   ],
   "note": ""
  },
  {
   "property": "C52",
   "status": "proved",
   "theorems": [
    "Verif.C52_schmitt",
    "Verif.C52_window",
    "Verif.C52_window_transitions"
   ],
   "note": ""
  },
  {
   "property": "C53",
   "status": "proved",
   "theorems": [
    "Verif.C53_pulse",
    "Verif.C53_reset"
   ],
   "note": ""
  },
  {
   "property": "C54",
   "status": "proved",
   "theorems": [
    "Verif.C54_zero_cross",
    "Verif.C54_peak",
    "Verif.C54_rising_edge"
   ],
   "note": ""
  },
  {
   "property": "C55",
   "status": "partial",
   "theorems": [
    "Verif.C55_bounded",
    "Verif.C55_sum",
    "Verif.C55_mean_zero",
    "Verif.C55_constant_input",
    "Verif.C55_pole_range",
    "Verif.C55_stable",
    "Verif.C55_pole_stable",
    "Verif.C55_hull_violation",
    "Verif.C55_unstable_violation",
    "Verif.C55_assign_violation"
   ],
   "note": "Exact arithmetic: everything proved for cut-offs up to sps/(2 pi); output bound, mean zero and decay for all cut-offs below sps/pi (C55_stable, C55_pole_stable). The code violates the range clause for every cut-off above sps/(2 pi) (C55_hull_violation), stability above sps/pi (C55_unstable_violation), and the assignment operator stores a truth value (C55_assign_violation). Rounded arithmetic: C69_dc_block."
  },
  {
   "property": "C56",
   "status": "partial",
   "theorems": [
    "Verif.C56_hull",
    "Verif.C56_constant_input",
    "Verif.C56_cutoff_partial",
    "Verif.C56_overshoot_violation",
    "Verif.C56_stable",
    "Verif.C56_nyquist_violation",
    "Verif.C56_leaky_cutoff_partial",
    "Verif.C56_leaky_violation",
    "Verif.C56_fixed_point",
    "Verif.C56_fixed_point_converges"
   ],
   "note": "Hull proved with rounding for every coefficient in [0,1). Low-pass: coefficient bound for cut-offs up to 0.2538 of the sample rate; the code overshoots above 0.2542 (C56_overshoot_violation), converges up to 0.3998 (C56_stable, exact arithmetic) and is unstable above 0.4 (C56_nyquist_violation). Leaky integrator: coefficient bound up to 0.159 (C56_leaky_cutoff_partial), overshoot above (C56_leaky_violation)."
  },
  {
   "property": "C57",
   "status": "proved",
   "theorems": [
    "Verif.C57_one_pole",
    "Verif.C57_polyphase",
    "Verif.C57_hilbert_energy",
    "Verif.C57_polyphase_response",
    "Verif.C57_one_pole_response",
    "Verif.C57_pivot",
    "Verif.C57_hilbert_response",
    "Verif.C57_hilbert_quadrature",
    "Verif.C57_pivot_float"
   ],
   "note": ""
  },
  {
   "property": "C58",
   "status": "proved",
   "theorems": [
    "Verif.C58_difference_equation",
    "Verif.C58_linear",
    "Verif.C58_time_invariant",
    "Verif.C58_reconfigure"
   ],
   "note": ""
  },
  {
   "property": "C59",
   "status": "partial",
   "theorems": [
    "Verif.C59_lowpass",
    "Verif.C59_highpass",
    "Verif.C59_bandpass_csg",
    "Verif.C59_bandpass_cpg_notch",
    "Verif.C59_peaking",
    "Verif.C59_shelves",
    "Verif.C59_shelf_quality_violation",
    "Verif.C59_frequency_response",
    "Verif.C59_cookbook",
    "Verif.C59_gain"
   ],
   "note": "Proved in full (exact arithmetic) except that the code ignores the quality factor of the shelves (C59_shelf_quality_violation); they have the fixed quality factor 1/sqrt 2."
  },
  {
   "property": "C60",
   "status": "proved",
   "theorems": [
    "Verif.C60_bounded",
    "Verif.C60_forgets",
    "Verif.C60_reconfigured"
   ],
   "note": ""
  },
  {
   "property": "C61",
   "status": "proved",
   "theorems": [
    "Verif.C61_a2db_total",
    "Verif.C61_a2db_mono",
    "Verif.C61_a2db_saturates",
    "Verif.C61_a2db_reciprocal",
    "Verif.C61_a2db_accuracy",
    "Verif.C61_db2a_total",
    "Verif.C61_db2a_mono",
    "Verif.C61_db2a_saturates",
    "Verif.C61_db2a_accuracy",
    "Verif.C61_amplitude_round_trip",
    "Verif.C61_level_round_trip",
    "Verif.C61_ten"
   ],
   "note": ""
  },
  {
   "property": "C62",
   "status": "proved",
   "theorems": [
    "Verif.C62_fft_exact",
    "Verif.C62_fft_frame",
    "Verif.C62_fft_reads",
    "Verif.C62_scramble_indices",
    "Verif.C62_scramble_involution",
    "Verif.C62_fft_rounded",
    "Verif.C62_sine"
   ],
   "note": "C62_fft_exact is exact arithmetic with exact sines (every k); C62_fft_rounded is double arithmetic with the code's own sines, k from 1 to 30, without overflow and without fused multiply-add."
  },
  {
   "property": "C63",
   "status": "partial",
   "theorems": [
    "Verif.C63_frames",
    "Verif.C63_seek",
    "Verif.C63_restart_partial",
    "Verif.C63_restart_counterexample",
    "Verif.C63_string_constructor",
    "Verif.C63_unopened",
    "Verif.C63_seek_after_end",
    "Verif.C63_reader"
   ],
   "note": "C63_frames: the first n calls deliver the first n frames followed by zero frames, without out-of-range reads, for every file, channel count, buffer size and n. C63_reader: the tape used as the reader here is exactly what the byte-level model of dr_wav does on a file made by the writer. C63_seek gives the exact behaviour of seek/restart after k calls: (b - k mod b) mod b buffered frames are delivered first. So \"restart begins at frame 0\" holds at buffer boundaries (C63_restart_partial) and, for ever, once a call has found the end of the file (C63_seek_after_end), and is refuted otherwise (C63_restart_counterexample). C63_string_constructor: the std::string constructor ignores buff_size; C63_unopened: calling an unopened player dereferences an empty vector."
  },
  {
   "property": "C64",
   "status": "partial",
   "theorems": [
    "Verif.C64_audio_list",
    "Verif.C64_audio_list_stable",
    "Verif.C64_get_partial",
    "Verif.C64_get_wrong",
    "Verif.C64_get_counterexample",
    "Verif.C64_audio_stale",
    "Verif.C64_audio_stale_counterexample",
    "Verif.C64_midi_list",
    "Verif.C64_midi_duplicates"
   ],
   "note": "C64_audio_list/C64_midi_list: first listings are exactly the devices with channels, with their host ids, in order. C64_audio_list_stable: repeated audio listing is stable. The remaining claims are false of the code: C64_get_partial and C64_get_wrong characterise when get(id) is right; C64_audio_stale and its counterexample: replaced devices stay listed; C64_midi_duplicates: the n-th MIDI listing has every device n times. PortAudio/PortMidi are modelled as a list of descriptions; references held by device objects into the static vectors are not modelled."
  },
  {
   "property": "C65",
   "status": "proved",
   "theorems": [
    "Verif.C65_full_period",
    "Verif.C65_range",
    "Verif.C65_uniform"
   ],
   "note": ""
  },
  {
   "property": "C66",
   "status": "proved",
   "theorems": [
    "Verif.C66_endpoints",
    "Verif.C66_hull",
    "Verif.C66_monotone",
    "Verif.C66_map"
   ],
   "note": ""
  },
  {
   "property": "C67",
   "status": "partial",
   "theorems": [
    "Verif.C67_processing_partial",
    "Verif.C67_error_violation"
   ],
   "note": "Proved as long as the device reports no error; on an error an uninitialised event is dispatched (C67_error_violation)."
  },
  {
   "property": "C68",
   "status": "proved",
   "theorems": [
    "Verif.C68_hull",
    "Verif.C68_converges",
    "Verif.C68_history",
    "Verif.C68_float"
   ],
   "note": "Exact arithmetic with the exact tangent for the range and convergence (C68_hull, C68_history, C68_converges); C68_float is the range in binary32 with every operation rounded."
  },
  {
   "property": "C69",
   "status": "partial",
   "theorems": [
    "Verif.C69_biquad",
    "Verif.C69_leaky",
    "Verif.C69_one_pole",
    "Verif.C69_dc_block",
    "Verif.C69_ema",
    "Verif.C69_one_pole_allpass",
    "Verif.C69_polyphase",
    "Verif.C69_hilbert",
    "Verif.C69_reso",
    "Verif.C69_moving_sum_exact",
    "Verif.C69_moving_sum_drift",
    "Verif.C69_moving_sum_drift_counterexample"
   ],
   "note": "Proved for all filters listed, for signals of any length, with explicit constants; the moving sum is exact on bounded-bit samples (C69_moving_sum_exact), drifts at most linearly otherwise (C69_moving_sum_drift), and C69_moving_sum_drift_counterexample refutes the last clause for every accumulator precision. Not covered: dynamic_smoother, a nonlinear filter (its range in float is C68_float); reso_filter with f(1-r) below 1.2e-4. See also C56_hull, C44_follower_hull, C42_output_bounds (exact hull bounds under rounding)."
  },
  {
   "property": "C70",
   "status": "partial",
   "theorems": [
    "Verif.C70_period",
    "Verif.C70_period_order",
    "Verif.C70_period_value",
    "Verif.C70_frequency_arith",
    "Verif.C70_period_exact",
    "Verif.C70_period_inexact",
    "Verif.C70_literals_exact",
    "Verif.C70_literals",
    "Verif.C70_phase",
    "Verif.C70_phase_div",
    "Verif.C70_phase_float",
    "Verif.C70_phase_float_counterexample",
    "Verif.C70_level_order",
    "Verif.C70_amplitude_order",
    "Verif.C70_level_sum",
    "Verif.C70_level_difference",
    "Verif.C70_level_product"
   ],
   "note": "Proved: period/frequency inverse within 1.001*2^-52, order, exact for powers of two (and a witness, 49 Hz, that it is not exact in general), literals, phase arithmetic modulo a turn, level order, decibel sum and amplitude product. Multiplying a phase by a float is proved to saturate instead of wrapping (C70_phase_float, with a counterexample), so that clause of the property is false of the code."
  },
  {
   "property": "C71",
   "status": "partial",
   "theorems": [
    "Verif.C71_hull_partial",
    "Verif.C71_recursion_partial",
    "Verif.C71_two_point_violation"
   ],
   "note": "The code is the recursion y=(s+y)/2, so the two-point mean property is violated (C71_two_point_violation); proved instead: hull bound and the exact recursion."
  },
  {
   "property": "C72",
   "status": "proved",
   "theorems": [
    "Verif.C72_pulse_data",
    "Verif.C72_peak_width",
    "Verif.C72_peak_width_binary32",
    "Verif.C72_edges_are_pulses"
   ],
   "note": "Positions: any floating-point semantics (C72_edges_are_pulses). Data: any semantics as a fold (C72_pulse_data), as maximum and first fall in exact arithmetic (C72_peak_width) and in single precision (C72_peak_width_binary32)."
  },
  {
   "property": "C73",
   "status": "proved",
   "theorems": [
    "Verif.C73_downsample",
    "Verif.C73_downsample_int"
   ],
   "note": ""
  },
  {
   "property": "C74",
   "status": "proved",
   "theorems": [
    "Verif.C74_cutoff_float",
    "Verif.C74_bounded",
    "Verif.C74_dc",
    "Verif.C74_forgets",
    "Verif.C74_setters"
   ],
   "note": ""
  },
  {
   "property": "C75",
   "status": "proved",
   "theorems": [
    "Verif.C75_peak_pulse",
    "Verif.C75_run",
    "Verif.C75_peak_pulse_binary32"
   ],
   "note": "Exact arithmetic and single precision. C75_run: the record of ready flags exists for every signal."
  },
  {
   "property": "C76",
   "status": "proved",
   "theorems": [
    "Verif.C76_estimate",
    "Verif.C76_fraction",
    "Verif.C76_estimate_binary32",
    "Verif.C76_fraction_binary32"
   ],
   "note": "Exact arithmetic and single precision (suffix _binary32); C76_fraction: the interpolation is within one frame of the integer distance."
  },
  {
   "property": "C77",
   "status": "proved",
   "theorems": [
    "Verif.C77_predict_rule",
    "Verif.C77_idempotent",
    "Verif.C77_transparent",
    "Verif.C77_predict_range",
    "Verif.C77_predict_range_binary32"
   ],
   "note": "Rule, idempotence and transparency for any floating-point semantics; range in exact arithmetic and in single precision."
  },
  {
   "property": "C78",
   "status": "proved",
   "theorems": [
    "Verif.C78_total",
    "Verif.C78_bounded",
    "Verif.C78_muted",
    "Verif.C78_gain",
    "Verif.C78_band_limited"
   ],
   "note": "rounding and tables included; cut-offs of the band-limited version up to 0.2538 of the sampling rate"
  },
  {
   "property": "C79",
   "status": "proved",
   "theorems": [
    "Verif.C79_above",
    "Verif.C79_below"
   ],
   "note": "rounding and tables included"
  },
  {
   "property": "C80",
   "status": "proved",
   "theorems": [
    "Verif.C80_smoothed",
    "Verif.C80_smoothed_range",
    "Verif.C80_rms_level",
    "Verif.C80_rms_total"
   ],
   "note": "mean and range in exact arithmetic; totality, range, monotonicity and accuracy of the level with rounding (rounding of the moving sum: see C69)"
  },
  {
   "property": "C81",
   "status": "partial",
   "theorems": [
    "Verif.C81_reciprocal",
    "Verif.C81_division",
    "Verif.C81_negative_violation",
    "Verif.C81_huge_violation"
   ],
   "note": "Proved for every float from 2^-126 to 2^125. The code violates it for every negative argument (C81_negative_violation: int overflow) and from 2^127 (C81_huge_violation)."
  },
  {
   "property": "C82",
   "status": "proved",
   "theorems": [
    "Verif.C82_log2",
    "Verif.C82_log10"
   ],
   "note": "rounding included"
  },
  {
   "property": "C83",
   "status": "partial",
   "theorems": [
    "Verif.C83_pow2",
    "Verif.C83_clamp",
    "Verif.C83_overflow_violation",
    "Verif.C83_negative_violation",
    "Verif.C83_pow10_partial",
    "Verif.C83_pow10",
    "Verif.C83_pow10_violation"
   ],
   "note": "fast_pow2 proved (rounding included) for -125.9 <= p <= 128 and its clamp below; violated above (C83_overflow_violation, C83_negative_violation). fast_pow10 characterised for |x| <= 38 (C83_pow10), within 5 % for |x| <= 1 (C83_pow10_partial); violated from 10 to 38 (C83_pow10_violation)."
  },
  {
   "property": "C84",
   "status": "proved",
   "theorems": [
    "Verif.C84_odd",
    "Verif.C84_sine",
    "Verif.C84_tangent",
    "Verif.C84_reso"
   ],
   "note": "fl32 rounding, no overflow, no fused multiply-add."
  },
  {
   "property": "C85",
   "status": "proved",
   "theorems": [
    "Verif.C85_exp3",
    "Verif.C85_exp4",
    "Verif.C85_exp5",
    "Verif.C85_exp6",
    "Verif.C85_exp7",
    "Verif.C85_exp8",
    "Verif.C85_exp9",
    "Verif.C85_same"
   ],
   "note": "fl32 rounding, no overflow, no fused multiply-add."
  },
  {
   "property": "C86",
   "status": "partial",
   "theorems": [
    "Verif.C86_accuracy",
    "Verif.C86_odd",
    "Verif.C86_bounded_partial",
    "Verif.C86_bounded_violation",
    "Verif.C86_curve"
   ],
   "note": "The code exceeds 1 by 2^-23 for some arguments (C86_bounded_violation); bound 1+1.4e-6 proved (C86_bounded_partial); accuracy, oddness and the shape of the exact curve proved in full."
  },
  {
   "property": "C87",
   "status": "proved",
   "theorems": [
    "Verif.C87_fast_tan",
    "Verif.C87_odd"
   ],
   "note": "fl32 rounding."
  },
  {
   "property": "C88",
   "status": "partial",
   "theorems": [
    "Verif.C88_interpolate",
    "Verif.C88_end_violation",
    "Verif.C88_abs_within",
    "Verif.C88_rel_within",
    "Verif.C88_abs_within_int"
   ],
   "note": "Proved for 0 <= mu < 1 and every lawful rounding; the documented result at mu = 1 is violated (C88_end_violation); the int overload is characterised exactly, with undefined behaviour for numbers 2^31 or more apart."
  },
  {
   "property": "C89",
   "status": "partial",
   "theorems": [
    "Verif.C89_open_device",
    "Verif.C89_open_default",
    "Verif.C89_default_rate",
    "Verif.C89_default_rate_violation",
    "Verif.C89_process",
    "Verif.C89_channels_violation",
    "Verif.C89_lifecycle",
    "Verif.C89_invalid",
    "Verif.C89_error_violation",
    "Verif.C89_midi",
    "Verif.C89_default_rate_counterexample"
   ],
   "note": "Proved for every host and every sequence of calls, except the three violations: C89_default_rate_violation / C89_default_rate_counterexample (rate of the input device used for output-only streams), C89_error_violation (uninitialised error pointer) and C89_channels_violation (channel counts truncated to int). C89_midi: a MIDI stream that failed to open still calls Pm_Close, on a null pointer. PortAudio and PortMidi are modelled by their documented behaviour."
  },
  {
   "property": "C90",
   "status": "partial",
   "theorems": [
    "Verif.C90_round_trip",
    "Verif.C90_channels_violation",
    "Verif.C90_unreadable_violation",
    "Verif.C90_zero_violation",
    "Verif.C90_size_violation"
   ],
   "note": "C90_round_trip: for 1..16383 channels, any rate >= 1, any sequence of writes of total size below 4 GiB, and any sequence of reads, restarts and seeks, the reader behaves as a tape holding exactly the written samples, bit for bit. The remaining part of the English claim is FALSE of the code and refuted: C90_channels_violation (blockAlign wraps at 16384 channels), C90_unreadable_violation, C90_zero_violation, C90_size_violation (sizes wrap at 4 GiB)."
  },
  {
   "property": "C91",
   "status": "proved",
   "theorems": [
    "Verif.C91_crash",
    "Verif.C91_complete",
    "Verif.C91_prefix_example"
   ],
   "note": "C91_crash, C91_complete: every byte-granular prefix of the file operations; C91_prefix_example shows a proper prefix. Assumes writes reach the disk in program order."
  },
  {
   "property": "C92",
   "status": "partial",
   "theorems": [
    "Verif.C92_open",
    "Verif.C92_reads",
    "Verif.C92_restart",
    "Verif.C92_tape",
    "Verif.C92_seek_violation",
    "Verif.C92_position_violation",
    "Verif.C92_big_violation",
    "Verif.C92_chunks",
    "Verif.C92_fact_violation"
   ],
   "note": "C92_open (total, and what an opened reader satisfies), C92_reads, C92_restart (files below 2 GiB), C92_tape, C92_chunks proved for all byte strings. The rest of the English claim is FALSE of the code and refuted: C92_fact_violation, C92_seek_violation, C92_position_violation, C92_big_violation. Sample conversion is in C93, C94 (A-law, mu-law, float), C95 and C96 (ADPCM)."
  },
  {
   "property": "C93",
   "status": "partial",
   "theorems": [
    "Verif.C93_range",
    "Verif.C93_exact",
    "Verif.C93_nearest",
    "Verif.C93_accuracy",
    "Verif.C93_monotone",
    "Verif.C93_monotone_u8",
    "Verif.C93_u8_extremes",
    "Verif.C93_u8_silence_violation"
   ],
   "note": "C93_range, C93_exact, C93_nearest, C93_accuracy, C93_monotone, C93_monotone_u8 proved over every rounding model of binary32; the silence claim is FALSE for 8-bit files and refuted (C93_u8_silence_violation, C93_u8_extremes)."
  },
  {
   "property": "C94",
   "status": "partial",
   "theorems": [
    "Verif.C94_alaw",
    "Verif.C94_mulaw",
    "Verif.C94_range",
    "Verif.C94_reads",
    "Verif.C94_wide_violation",
    "Verif.C94_float",
    "Verif.C94_double",
    "Verif.C94_unsupported"
   ],
   "note": "C94_alaw, C94_mulaw (all 256 codes against the G.711 formula), C94_range, C94_reads, C94_float, C94_double, C94_unsupported proved; for more than one byte per sample the claim is FALSE of the code and refuted: C94_wide_violation."
  },
  {
   "property": "C95",
   "status": "partial",
   "theorems": [
    "Verif.C95_cut_seek",
    "Verif.C95_reads",
    "Verif.C95_cut",
    "Verif.C95_tape_partial",
    "Verif.C95_length",
    "Verif.C95_range",
    "Verif.C95_restart_violation",
    "Verif.C95_index_violation",
    "Verif.C95_truncated_violation"
   ],
   "note": "C95_reads (every sequence of reads), C95_tape_partial (also seeks and restarts, going back only from block boundaries), C95_cut, C95_cut_seek (with forward seeks) (files cut off between blocks deliver exactly the blocks that are there), C95_length, C95_range proved for all files with valid headers. The rest of the English claim is FALSE of the code and refuted: C95_restart_violation, C95_index_violation, C95_truncated_violation."
  },
  {
   "property": "C96",
   "status": "partial",
   "theorems": [
    "Verif.C96_cut_seek",
    "Verif.C96_reads",
    "Verif.C96_cut",
    "Verif.C96_tape_partial",
    "Verif.C96_length",
    "Verif.C96_range",
    "Verif.C96_restart_violation",
    "Verif.C96_predictor_violation",
    "Verif.C96_overflow_violation"
   ],
   "note": "C96_reads (every sequence of reads), C96_tape_partial (also seeks and restarts, going back only from block boundaries), C96_cut, C96_cut_seek (with forward seeks) (files cut off anywhere deliver exactly the samples that are there), C96_length, C96_range proved for all files with valid predictors and steps that do not overflow. The rest of the English claim is FALSE of the code and refuted: C96_restart_violation, C96_predictor_violation, C96_overflow_violation."
  },
  {
   "property": "C97",
   "status": "partial",
   "theorems": [
    "Verif.C97_pulse_train",
    "Verif.C97_violation",
    "Verif.C97_pulse_train_binary32",
    "Verif.C97_lock_on",
    "Verif.C97_lock_on_binary32",
    "Verif.C97_prediction",
    "Verif.C97_prediction_violation",
    "Verif.C97_prediction_binary32"
   ],
   "note": "C97_pulse_train: the full claim in exact arithmetic for every fresh detector and pulse train starting in a gap, excepting windows of 320 samples with N > 128. C97_lock_on: after any history, starting at any phase, exact report from eleven windows on (under the hypothesis that the calls return, because the code can read outside its storage after some histories, see C24). C97_pulse_train_binary32 and C97_lock_on_binary32: the same with every floating-point operation of the detector rounded to binary32. C97_violation: in the excepted combination a 100 Hz train in a 100-1600 Hz detector is never reported, however long it lasts, although analyses are made. C97_prediction, C97_prediction_binary32: predictions, for every frequency below the highest and every sequence of questions; C97_prediction_violation: at the highest frequency."
  },
  {
   "property": "C98",
   "status": "partial",
   "theorems": [
    "Verif.C98_lock_on_binary32_partial",
    "Verif.C98_dual_lock_on_binary32_partial",
    "Verif.C98_dual_lock_on_partial",
    "Verif.C98_violation_dual",
    "Verif.C98_pulse_train",
    "Verif.C98_lock_on_partial",
    "Verif.C98_pulse_train_binary32",
    "Verif.C98_violation_octave"
   ],
   "note": "C98_pulse_train: full claim for a fresh pitch detector (windows of 320 samples with N > 128 excepted, as for C97). C98_lock_on_partial: after any history, up to a whole-number factor (under the hypothesis that the calls return, see C24). C98_violation_octave: the factor can stay 2 for ever. C98_dual_lock_on_partial: the dual detector under the two conditions in the statement. C98_violation_dual: without the second condition it never locks on. C98_pulse_train_binary32, C98_lock_on_binary32_partial, C98_dual_lock_on_binary32_partial: the same with every operation of the detectors rounded to binary32."
  },
  {
   "property": "C99",
   "status": "partial",
   "theorems": [
    "Verif.C99_echo",
    "Verif.C99_echoes",
    "Verif.C99_bounded",
    "Verif.C99_example_bounds",
    "Verif.C99_violation"
   ],
   "note": "All parts proved for D = the least power of two not below the requested number of samples (any rounding, any partition into callbacks). That D is the delay asked for is false of the code: C99_violation (350 ms at 44100 Hz)."
  },
  {
   "property": "C100",
   "status": "partial",
   "theorems": [
    "Verif.C100_bounded",
    "Verif.C100_silent_start",
    "Verif.C100_note_on",
    "Verif.C100_note_off_silences",
    "Verif.C100_velocity_zero_violation",
    "Verif.C100_early_note_off_violation",
    "Verif.C100_soft_note_violation"
   ],
   "note": "Safety, bounds, silence before the first note and after the note-off proved for all interleavings (atomic steps; overflow to infinity and the data race between the MIDI and the audio thread are outside the model). False of the code, with proofs: C100_velocity_zero_violation, C100_early_note_off_violation, C100_soft_note_violation."
  },
  {
   "property": "C101",
   "status": "proved",
   "theorems": [
    "Verif.C101_tone",
    "Verif.C101_buffering",
    "Verif.C101_range_violation"
   ],
   "note": "Frequencies from the sampling rate upwards make the conversion to the phase increment undefined (C101_range_violation)."
  },
  {
   "property": "C102",
   "status": "partial",
   "theorems": [
    "Verif.C102_open",
    "Verif.C102_reads",
    "Verif.C102_tape",
    "Verif.C102_chunks",
    "Verif.C102_fact_violation",
    "Verif.C102_padding_violation"
   ],
   "note": "C102_open, C102_reads, C102_tape for all byte strings; C102_chunks for chunks whose sizes are multiples of 4. The rest of the English claim is FALSE of the code and refuted: C102_padding_violation, C102_fact_violation."
  },
  {
   "property": "C103",
   "status": "proved",
   "theorems": [
    "Verif.C103_total",
    "Verif.C103_processors",
    "Verif.C103_quiet",
    "Verif.C103_expander",
    "Verif.C103_gain",
    "Verif.C103_feedback_law",
    "Verif.C103_expander_gain",
    "Verif.C103_soft_gain"
   ],
   "note": "Binary32/binary64 rounding and decibel tables included. C103_feedback_law is about any state whose envelope and output level agree within delta dB. C103_gain is for the hard knee, C103_soft_gain for the soft knee, C103_expander_gain for the expander."
  },
  {
   "property": "C104",
   "status": "partial",
   "theorems": [
    "Verif.C104_agc",
    "Verif.C104_lookahead_violation"
   ],
   "note": "C104_agc is the whole law except that the look-ahead is not half a millisecond at every rate: C104_lookahead_violation (32 kHz: one sample).  The delay actually obtained is stated exactly in C104_agc."
  },
  {
   "property": "C105",
   "status": "partial",
   "theorems": [
    "Verif.C105_lines",
    "Verif.C105_readable",
    "Verif.C105_error_violation"
   ],
   "note": "C105_lines and C105_readable are the whole claim for histories without device errors (and, for readability, pitch bends with 7-bit data bytes as MIDI requires); after a device error the code prints an uninitialised event (C105_error_violation)."
  },
  {
   "property": "C106",
   "status": "partial",
   "theorems": [
    "Verif.C106_exp",
    "Verif.C106_sinh",
    "Verif.C106_cosh",
    "Verif.C106_tanh_partial",
    "Verif.C106_tanh_violation",
    "Verif.C106_log"
   ],
   "note": "Proved in full for exp, sinh, cosh, log; the tangent from -43 on (C106_tanh_partial); below, the code violates it (C106_tanh_violation: +1 at -70, undefined conversion at -140)."
  }
 ]
}