{
 "claims": [
  {
   "property": "C01",
   "status": "proved",
   "theorems": [
    "Cbadc.Bytes.C01_word_roundtrip",
    "Cbadc.Bytes.C01_stream_roundtrip",
    "Cbadc.Bytes.C01_binary_identity"
   ],
   "note": "Words are modelled as byte lists (little-endian two's complement)."
  },
  {
   "property": "C02",
   "status": "partial",
   "theorems": [
    "Cbadc.Bytes.C02_false",
    "Cbadc.Bytes.C02_accept_iff_partial",
    "Cbadc.Bytes.C02_total_partial"
   ],
   "note": "False for M=16 and 32<=M<=128 (signed formats): C02_false. Exact acceptance condition and totality for the remaining M proved."
  },
  {
   "property": "C03",
   "status": "proved",
   "theorems": [
    "Cbadc.Bytes.C03_single_file",
    "Cbadc.Bytes.C03_files_concat",
    "Cbadc.Bytes.C03_file_contents"
   ],
   "note": "words_per_file >= 1."
  },
  {
   "property": "C04",
   "status": "partial",
   "theorems": [
    "Cbadc.Bytes.C04_false",
    "Cbadc.Bytes.C04_single_file_partial",
    "Cbadc.Bytes.C04_files_partial"
   ],
   "note": "False: the reader yields an empty word at each file end, the decoder then raises struct.error; only the first file is ever delivered. The exact behaviour is proved."
  },
  {
   "property": "C05",
   "status": "proved",
   "theorems": [
    "Cbadc.Streams.C05_random_control_signal",
    "Cbadc.Streams.C05_show_status_passes",
    "Cbadc.Streams.C05_show_status_ends"
   ],
   "note": "The estimator side is in the FIR/IIR models (C38)."
  },
  {
   "property": "C06",
   "status": "proved",
   "theorems": [
    "Cbadc.Streams.C06_rows",
    "Cbadc.Streams.C06_early_end",
    "Cbadc.Streams.C06_rejects"
   ],
   "note": ""
  },
  {
   "property": "C07",
   "status": "proved",
   "theorems": [
    "Cbadc.C07_roundtrip_error"
   ],
   "note": "Exact arithmetic."
  },
  {
   "property": "C08",
   "status": "proved",
   "theorems": [
    "Cbadc.C08_int_roundtrip",
    "Cbadc.C08_injective",
    "Cbadc.C08_monotone",
    "Cbadc.C08_odd"
   ],
   "note": "Exact arithmetic."
  },
  {
   "property": "C09",
   "status": "proved",
   "theorems": [
    "Cbadc.C09_float_range",
    "Cbadc.C09_fixed_range",
    "Cbadc.C09_ctor"
   ],
   "note": "Exact arithmetic."
  },
  {
   "property": "C10",
   "status": "partial",
   "theorems": [
    "Cbadc.C10_false",
    "Cbadc.C10_fits_partial"
   ],
   "note": "False at v = max; holds for every other accepted value."
  },
  {
   "property": "C100",
   "status": "partial",
   "theorems": [
    "Cbadc.Nuv.C100_smoothing_partial",
    "Cbadc.Nuv.C100_variance_false",
    "Cbadc.Nuv.C100_symmetric_false"
   ],
   "note": "Proved with variance covU^2 and estimates divided by covU (the code uses covU twice), for symmetric output matrices (the code takes the transpose of the output matrix for the innovation), and for waveforms that repeat in each sampling period; the first estimate of each batch is not a value of the input. The property as documented is refuted by two witnesses."
  },
  {
   "property": "C101",
   "status": "partial",
   "theorems": [
    "Cbadc.Nuv.C101_descent_partial",
    "Cbadc.Nuv.C101_rate_partial",
    "Cbadc.Nuv.C101_converges_partial"
   ],
   "note": "Under the hypotheses of C100 on the output matrix and the waveforms; the rate has the least variance that the code allows, 1e-100, in its denominator, and so says something only for enormous numbers of iterations; the statement for enough iterations is for the first batch, whose prior does not depend on their number."
  },
  {
   "property": "C102",
   "status": "partial",
   "theorems": [
    "Cbadc.Nuv.C102_chain_false",
    "Cbadc.Nuv.C102_handover_partial"
   ],
   "note": "Refuted: the last decision of a batch is never propagated, and for K1 = 1 nothing is. Proved: what is handed over is the optimal prediction one sample time too early."
  },
  {
   "property": "C103",
   "status": "partial",
   "theorems": [
    "Cbadc.Global.C103_optimal_partial",
    "Cbadc.Global.C103_contribution_partial",
    "Cbadc.Global.C103_single",
    "Cbadc.Global.C103_later_false",
    "Cbadc.Global.C103_phase_false"
   ],
   "note": "Proved when the signals up to the deciding one act with their waveforms until the end of the clock period and the later ones do not act; with a single signal that decides at the beginning of the period this is the comparator of the digital control. False in general: the last decisions of the later signals are neglected (`C103_later_false`), and so is the part of a waveform beyond the end of the clock period (`C103_phase_false`)."
  },
  {
   "property": "C104",
   "status": "partial",
   "theorems": [
    "Cbadc.Global.C104_keeps_partial",
    "Cbadc.Global.C104_feedthrough_false"
   ],
   "note": "Transfer functions agree for systems without direct feedthrough; the matrix D is not passed on, so that a system with feedthrough loses it (`C104_feedthrough_false`)."
  },
  {
   "property": "C105",
   "status": "proved",
   "theorems": [
    "Cbadc.Global.C105_recovers",
    "Cbadc.Global.C105_resonator_false"
   ],
   "note": "The quadrature is taken as exact; `np.linalg.inv` has a result only for a nonsingular matrix."
  },
  {
   "property": "C106",
   "status": "partial",
   "theorems": [
    "Cbadc.UnitElements.C106_columns",
    "Cbadc.UnitElements.C106_accepts",
    "Cbadc.UnitElements.C106_greedy",
    "Cbadc.UnitElements.C106_order_false",
    "Cbadc.UnitElements.C106_empty_false"
   ],
   "note": "All clauses for candidates with zero last, columns for any candidates. The order of the candidates does matter: the search ends at the zero vector, so that with zero in front there is never a result (`C106_order_false`); and for M = 0 one column is returned (`C106_empty_false`)."
  },
  {
   "property": "C107",
   "status": "proved",
   "theorems": [
    "Cbadc.Overcomplete.C107_normalised",
    "Cbadc.Overcomplete.C107_orthogonal"
   ],
   "note": "Orthogonality is for an optimiser that finds a global minimum (`Exact`); the other clauses for any optimiser that does not return zero."
  },
  {
   "property": "C108",
   "status": "partial",
   "theorems": [
    "Cbadc.Modulator.C108_rotating",
    "Cbadc.Modulator.C108_oscillators",
    "Cbadc.Modulator.C108_fewer_false"
   ],
   "note": "Proved for as many controls as states, and for chains of one or two oscillators. With fewer controls the sliced rotation matrix is not a rotation: for at most half as many controls as states they are multiplied by a cosine and have no effect where it is zero (`C108_fewer_false`). For longer chains see C109."
  },
  {
   "property": "C109",
   "status": "partial",
   "theorems": [
    "Cbadc.Modulator.C109_neighbours_partial",
    "Cbadc.Modulator.C109_neighbours_false",
    "Cbadc.Modulator.C109_halves_false"
   ],
   "note": "Right for neighbouring states if there are two or four states. False for neighbouring states from six states on, and for the bandpass layout from four states on."
  },
  {
   "property": "C11",
   "status": "proved",
   "theorems": [
    "Cbadc.Control.C11_last_matching",
    "Cbadc.Control.C11_binary",
    "Cbadc.Control.C11_others_kept"
   ],
   "note": "Exact arithmetic; np.allclose with its default relative tolerance is part of the model."
  },
  {
   "property": "C110",
   "status": "partial",
   "theorems": [
    "Cbadc.Decimation.C110_signal",
    "Cbadc.Decimation.C110_rows",
    "Cbadc.Decimation.C110_columns_false"
   ],
   "note": "Proved for one-dimensional signals and for two-dimensional ones whose time axis is the last. With time along the first axis (the default axis=0) broadcasting is along the wrong axis: an exception, or a wrong or square result (`C110_columns_false`)."
  },
  {
   "property": "C111",
   "status": "partial",
   "theorems": [
    "Cbadc.Decimation.C111_partial",
    "Cbadc.Decimation.C111_samples_partial",
    "Cbadc.Decimation.C111_refused",
    "Cbadc.Decimation.C111_false"
   ],
   "note": "Proved for signals without a component exactly at half the new rate; every DSR-th sample if DSR divides the length. Otherwise the samples are len/(len//DSR) apart (`C111_false`), so that the time axis is stretched."
  },
  {
   "property": "C112",
   "status": "partial",
   "theorems": [
    "Cbadc.NgSpice.C112_partial",
    "Cbadc.NgSpice.C112_false"
   ],
   "note": "Proved for arrays and .npy files. A .npz file yields the names of its arrays instead of control vectors, and the class has no `__iter__`, so that a for loop raises TypeError (`C112_false`)."
  },
  {
   "property": "C113",
   "status": "proved",
   "theorems": [
    "Cbadc.NgSpice.C113_vectors"
   ],
   "note": "What ngspice writes is an arbitrary waveform. When there are fewer edges than vectors the remaining vectors are zero."
  },
  {
   "property": "C114",
   "status": "partial",
   "theorems": [
    "Cbadc.TestBench.C114_supply",
    "Cbadc.TestBench.C114_input_partial",
    "Cbadc.TestBench.C114_offset_false",
    "Cbadc.TestBench.C114_phase_false",
    "Cbadc.TestBench.C114_refused",
    "Cbadc.TestBench.C114_solvable"
   ],
   "note": "Supply, common mode and clock as stated (the clock is late by half a transition time, and its duty cycle and phase are ignored). The input is right without offset and phase; an offset arrives doubled (`C114_offset_false`) and a phase in radian is taken as degrees (`C114_phase_false`)."
  },
  {
   "property": "C115",
   "status": "partial",
   "theorems": [
    "Cbadc.TestBench.C115_partial",
    "Cbadc.TestBench.C115_false"
   ],
   "note": "False: the clock is low at time zero, so that vector 0 is the initial state before any decision (`C115_false`) and all others are late by one; the vector of the last period is dropped. Proved: vector k+1 is read at the first time point after the clock has fallen in period k."
  },
  {
   "property": "C116",
   "status": "proved",
   "theorems": [
    "Cbadc.Filters.C116_butterworth",
    "Cbadc.Filters.C116_rejects"
   ],
   "note": "Exact arithmetic; scipy's prototype is modelled, not trusted as a black box."
  },
  {
   "property": "C117",
   "status": "proved",
   "theorems": [
    "Cbadc.Filters.C117_chebyshev",
    "Cbadc.Filters.C117_ripple",
    "Cbadc.Filters.C117_rejects"
   ],
   "note": "Exact arithmetic; rp = 0, where the prototype divides by zero, is outside the statement."
  },
  {
   "property": "C118",
   "status": "partial",
   "theorems": [
    "Cbadc.Filters.C118_chebyshevII_partial",
    "Cbadc.Filters.C118_stopband_partial",
    "Cbadc.Filters.C118_tie_false"
   ],
   "note": "False at attenuations where two pole pairs have equal imaginary parts (witness of order four); proved for all others."
  },
  {
   "property": "C119",
   "status": "partial",
   "theorems": [
    "Cbadc.Circuit.C119_accepts",
    "Cbadc.Circuit.C119_model",
    "Cbadc.Circuit.C119_circuit_partial",
    "Cbadc.Circuit.C119_false",
    "Cbadc.Circuit.C119_reduced_false"
   ],
   "note": "false as stated: netlist = ladder with 2 Rin and |gain|/2 (proved as an equivalence), extended model = ladder with Rin and gain; the exposed M-state model drops the inductor currents; supplies and common mode are not constrained beyond Kirchhoff's law at the capacitor nodes"
  },
  {
   "property": "C12",
   "status": "proved",
   "theorems": [
    "Cbadc.Control.C12_contribution",
    "Cbadc.Control.C12_no_delay",
    "Cbadc.Control.C12_decision_signal"
   ],
   "note": "Histories with reset are covered by C12_no_delay and, after the next update, C12_contribution."
  },
  {
   "property": "C120",
   "status": "proved",
   "theorems": [
    "Cbadc.Circuit.C120_gm",
    "Cbadc.Circuit.C120_gains"
   ],
   "note": "numerical errors of solve_ivp are not modelled"
  },
  {
   "property": "C121",
   "status": "partial",
   "theorems": [
    "Cbadc.Estimator.C121_accepts",
    "Cbadc.Estimator.C121_estimate_partial",
    "Cbadc.Estimator.C121_no_overflow",
    "Cbadc.Estimator.C121_offset_partial",
    "Cbadc.Estimator.C121_offset_false"
   ],
   "note": "proved for filters without offset; with an offset the claim is false of the code (C121_offset_false), C121_offset_partial states what an offset does: it is divided by the scale"
  },
  {
   "property": "C122",
   "status": "partial",
   "theorems": [
    "Cbadc.Estimator.Export.C122_c_fixed",
    "Cbadc.Estimator.Export.C122_rust_fixed",
    "Cbadc.Estimator.Export.C122_c_float",
    "Cbadc.Estimator.Export.C122_rust_float",
    "Cbadc.Estimator.Export.C122_file_name",
    "Cbadc.Estimator.Export.C122_int_fits_partial",
    "Cbadc.Estimator.Export.C122_int_false"
   ],
   "note": "the contents are proved for all filters; that the numbers fit the declared type is proved for formats of at most 31 bits and false of wider ones"
  },
  {
   "property": "C123",
   "status": "partial",
   "theorems": [
    "Cbadc.Estimator.Export.C123_convolution",
    "Cbadc.Estimator.Export.C123_frequencies",
    "Cbadc.Estimator.Export.C123_response_partial",
    "Cbadc.Estimator.Export.C123_response_false"
   ],
   "note": "the returned transform is the conjugate of the response times a delay of K3 - 1 samples (same magnitude), not the response"
  },
  {
   "property": "C124",
   "status": "partial",
   "theorems": [
    "Cbadc.Estimator.Export.C124_count_partial",
    "Cbadc.Estimator.Export.C124_count_false"
   ],
   "note": "the code counts the positive taps; equality holds exactly when no tap is negative"
  },
  {
   "property": "C125",
   "status": "proved",
   "theorems": [
    "Cbadc.Hierarchy.C125_definitions"
   ],
   "note": "Definitions are taken as given texts of an arbitrary type; NetlistElement is a leaf."
  },
  {
   "property": "C126",
   "status": "partial",
   "theorems": [
    "Cbadc.Hierarchy.C126_check_partial",
    "Cbadc.Hierarchy.C126_fresh_partial",
    "Cbadc.Hierarchy.C126_ambiguous_false",
    "Cbadc.Hierarchy.C126_stale_false"
   ],
   "note": "False of the code: two sub-circuits beside each other with one name and two definitions pass; a circuit changed after a check is judged by the old lists."
  },
  {
   "property": "C127",
   "status": "partial",
   "theorems": [
    "Cbadc.Hierarchy.C127_models",
    "Cbadc.Hierarchy.C127_own_partial",
    "Cbadc.Hierarchy.C127_digital_control",
    "Cbadc.Hierarchy.C127_digital_models",
    "Cbadc.Hierarchy.C127_dither_false"
   ],
   "note": "False of the code for the dither control: the delays 1e-15 given to its clock converter, flip-flops and output converters are never written; the comparators' models with T/1000 and T/100 are."
  },
  {
   "property": "C128",
   "status": "partial",
   "theorems": [
    "Cbadc.Circuit.C128_decides",
    "Cbadc.Circuit.C128_control",
    "Cbadc.Circuit.C128_single_false"
   ],
   "note": "Proved for the comparator with differential outputs, the only one the package uses; false of ClockedComparator, whose data node and output port are both called OUT. Laws of the XSPICE devices are assumed as specified, set and reset inactive, equal rise and fall delays."
  },
  {
   "property": "C129",
   "status": "partial",
   "theorems": [
    "Cbadc.Circuit.C129_shape",
    "Cbadc.Circuit.C129_observation",
    "Cbadc.Circuit.C129_control",
    "Cbadc.Circuit.C129_choice_partial",
    "Cbadc.Circuit.C129_dither_false"
   ],
   "note": "The phases are proved for every control the constructor accepts. Partial because a dithered multi-phase control always raises IndexError (C129_dither_false). Device laws are assumed as specified; the delay obeys the names of its terminals."
  },
  {
   "property": "C13",
   "status": "partial",
   "theorems": [
    "Cbadc.Control.C13_false",
    "Cbadc.Control.C13_view_partial",
    "Cbadc.Control.C13_after_reset_partial"
   ],
   "note": "False: control_signal() hands out a view. Exact behaviour proved: a held vector shows the current signal until the next reset and is final afterwards."
  },
  {
   "property": "C130",
   "status": "partial",
   "theorems": [
    "Cbadc.NetlistText.C130_accepts",
    "Cbadc.NetlistText.C130_errors",
    "Cbadc.NetlistText.C130_round_trip_partial",
    "Cbadc.NetlistText.C130_blank_false",
    "Cbadc.NetlistText.C130_file_false"
   ],
   "note": "Acceptance and errors are complete for texts over characters with ASCII case mapping. The round trip needs a name in lower case without a dot, terminals in upper case and no blank line in an element's text; a blank line anywhere is refused with IndexError (C130_blank_false) and a name ending in .cir is taken for a file (C130_file_false). Sub-circuits with parameters are not covered by the printed text."
  },
  {
   "property": "C131",
   "status": "partial",
   "theorems": [
    "Cbadc.Circuit.C131_construct",
    "Cbadc.Circuit.C131_file_partial",
    "Cbadc.Circuit.C131_stale_false",
    "Cbadc.Circuit.C131_random",
    "Cbadc.Circuit.C131_two_false",
    "Cbadc.Circuit.C131_nominal_partial",
    "Cbadc.Circuit.C131_nominal_false"
   ],
   "note": "Acceptance, the file of a source under a free name and the decision of a random control are proved; the property as a whole is false: stale files (C131_stale_false), two random controls (C131_two_false) and the rows drawn by the simulation for several random controls (C131_nominal_false). Device laws are assumed as specified."
  },
  {
   "property": "C132",
   "status": "partial",
   "theorems": [
    "Cbadc.Estimator.C132_warm_up",
    "Cbadc.Estimator.C132_warm_up_samples",
    "Cbadc.Estimator.C132_fir_partial",
    "Cbadc.Estimator.C132_iir_partial",
    "Cbadc.Estimator.C132_batch_partial",
    "Cbadc.Estimator.C132_parallel_partial",
    "Cbadc.Estimator.C132_samples_false",
    "Cbadc.Estimator.C132_downsample_false"
   ],
   "note": "The lag tells the sample for every history of next() and warm_up() without an argument and without downsampling; warm_up(samples) and downsampling are refuted. The convention that sample k belongs to time (k+1)T is not modelled."
  },
  {
   "property": "C133",
   "status": "partial",
   "theorems": [
    "Cbadc.Estimator.C133_turn",
    "Cbadc.Estimator.C133_odd",
    "Cbadc.Estimator.C133_nth",
    "Cbadc.Estimator.C133_batch",
    "Cbadc.Estimator.C133_fir_partial",
    "Cbadc.Estimator.C133_fir_false"
   ],
   "note": "Refuted: the same sample is demodulated with another phase by a FIR filter than by a batch estimator, because the counter counts estimates and not samples."
  },
  {
   "property": "C134",
   "status": "partial",
   "theorems": [
    "Cbadc.Analog.C134_peak",
    "Cbadc.Analog.C134_raises",
    "Cbadc.Analog.C134_shares_partial",
    "Cbadc.Analog.C134_snr_false",
    "Cbadc.Analog.C134_rows_false"
   ],
   "note": "Equal shares with one input are proved; that the target SNR is met and the case of several inputs are refuted."
  },
  {
   "property": "C135",
   "status": "partial",
   "theorems": [
    "Cbadc.Analog.C135_shares_partial",
    "Cbadc.Analog.C135_band_false",
    "Cbadc.Analog.C135_total_false"
   ],
   "note": "The normalisation is proved; that the gains are those of the band, and that the amplitudes of all states together are normalised, is refuted."
  },
  {
   "property": "C136",
   "status": "partial",
   "theorems": [
    "Cbadc.Signal.C136_band_limited_samples",
    "Cbadc.Signal.C136_raised_cosine_samples",
    "Cbadc.Signal.C136_hold",
    "Cbadc.Signal.C136_linear",
    "Cbadc.Signal.C136_interpolation_false"
   ],
   "note": "The values at the samples and linearity are proved; that the values in between interpolate the samples is refuted (the impulse response is evaluated at t -/+ i T instead of at the distance to the sample)."
  },
  {
   "property": "C137",
   "status": "partial",
   "theorems": [
    "Cbadc.Adaptive.C137_fit_partial",
    "Cbadc.Adaptive.C137_recover_partial",
    "Cbadc.Adaptive.C137_search",
    "Cbadc.Adaptive.C137_search_reject",
    "Cbadc.Adaptive.C137_lms_partial",
    "Cbadc.Adaptive.C137_rls_partial",
    "Cbadc.Adaptive.C137_rank_false",
    "Cbadc.Adaptive.C137_complex_false",
    "Cbadc.Adaptive.C137_negative_false",
    "Cbadc.Adaptive.C137_square_false"
   ],
   "note": "Proved for real data, one reference, non-negative delays and K different from the number of channels (plus one); false for the delay search with dependent columns, complex data, negative delays and K equal to the number of channels plus one. Exact solver assumed."
  },
  {
   "property": "C138",
   "status": "partial",
   "theorems": [
    "Cbadc.Filter.C138_symmetric",
    "Cbadc.Filter.C138_solves_partial",
    "Cbadc.Filter.C138_exceptions",
    "Cbadc.Filter.C138_brute_false"
   ],
   "note": "Symmetry and the treatment of exceptions in all cases; a solution whenever the solver used returns one, where the brute force solver is started from an exact solution. That the brute force solver improves on its start is refuted: for the integrator it ends from every start in [0, 1) with at least the fraction 1 - 2e-10 of the initial error (`C138_brute_false`). Exact arithmetic; the solvers of SymPy, SciPy and NumPy are parameters."
  },
  {
   "property": "C139",
   "status": "partial",
   "theorems": [
    "Cbadc.Vams.C139_summer_partial",
    "Cbadc.Vams.C139_lengths",
    "Cbadc.Vams.C139_zero_false",
    "Cbadc.Vams.C139_differential_ngspice",
    "Cbadc.Vams.C139_differential_false",
    "Cbadc.Vams.C139_integrator_partial",
    "Cbadc.Vams.C139_offset_false",
    "Cbadc.Vams.C139_limits_false",
    "Cbadc.Vams.C139_comparator_partial",
    "Cbadc.Vams.C139_comparator_false"
   ],
   "note": "Proved for summers with a gain that is not zero and for integrators without negative offset (initial value and limits aside). False for summers without any gain (`C139_zero_false`), for differential summers in Spectre (`C139_differential_false`), for integrators with a negative offset (`C139_offset_false`) or at their limits (`C139_limits_false`), and for the comparator below its upper threshold (`C139_comparator_false`). The reader of Verilog-AMS expressions is a specification of ours; declarations and the initial block are not modelled."
  },
  {
   "property": "C14",
   "status": "partial",
   "theorems": [
    "Cbadc.Control.C14_false",
    "Cbadc.Control.C14_multilevel_false",
    "Cbadc.Control.C14_reset_partial",
    "Cbadc.Control.C14_after_update_partial"
   ],
   "note": "False: old decisions survive reset (visible with t_delay > 0), and a multi-level control truncates after reset. The rest of the behaviour equals that of a new control."
  },
  {
   "property": "C140",
   "status": "partial",
   "theorems": [
    "Cbadc.Connections.C140_check",
    "Cbadc.Connections.C140_upstream_partial",
    "Cbadc.Connections.C140_upstream_false"
   ],
   "note": "The warnings in full. connect_upstream() does nothing if no terminal is open, and raises an AttributeError otherwise (`C140_upstream_false`). The documented ValueError of check_connections() is never raised: the statements are comments in the code."
  },
  {
   "property": "C141",
   "status": "partial",
   "theorems": [
    "Cbadc.TestBench.C141_frontend",
    "Cbadc.TestBench.C141_observer",
    "Cbadc.TestBench.C141_check",
    "Cbadc.TestBench.C141_sources",
    "Cbadc.TestBench.C141_built_partial",
    "Cbadc.TestBench.C141_statespace_false"
   ],
   "note": "Every test bench but the state space one: its constructor reads a frontend that is never set and always raises AttributeError."
  },
  {
   "property": "C142",
   "status": "proved",
   "theorems": [
    "Cbadc.Filter.C142_error",
    "Cbadc.Filter.C142_bound",
    "Cbadc.Filter.C142_difference",
    "Cbadc.Filter.C142_decisions",
    "Cbadc.Filter.C142_batch"
   ],
   "note": "Exact arithmetic; positive definite solutions of the Riccati equations, as C98 shows for observable and controllable systems; no delay of the control."
  },
  {
   "property": "C143",
   "status": "proved",
   "theorems": [
    "Cbadc.EndToEnd.C143_chain",
    "Cbadc.EndToEnd.C143_leap_frog",
    "Cbadc.EndToEnd.C143_batch"
   ],
   "note": "Exact arithmetic: exact solutions of the differential equations in the simulator and of the Riccati equations with positive definite solutions (C98); the numpy backend without mid_point. The bound is in terms of the outputs of the analog system driven by the error, which is what the filter minimises; at frequencies where the gain of the analog system is large this makes the error small."
  },
  {
   "property": "C144",
   "status": "proved",
   "theorems": [
    "Cbadc.Filter.C144_stabilising",
    "Cbadc.Filter.C144_filters",
    "Cbadc.EndToEnd.C144_chain",
    "Cbadc.EndToEnd.C144_leap_frog",
    "Cbadc.EndToEnd.C144_converter"
   ],
   "note": "Exact arithmetic. That the solver returns a stabilising solution is assumed (scipy.linalg.solve_continuous_are is documented to do so; C98 shows it for the analytical solver whenever it succeeds); the existence of a stabilising solution is not proved."
  },
  {
   "property": "C145",
   "status": "proved",
   "theorems": [
    "Cbadc.Truncation.C145_limit",
    "Cbadc.Truncation.C145_estimators",
    "Cbadc.Truncation.C145_fir_batch"
   ],
   "note": "Exact arithmetic, no downsampling, no mid_point, no offset."
  },
  {
   "property": "C146",
   "status": "partial",
   "theorems": [
    "Cbadc.Adaptive.C146_response_partial",
    "Cbadc.Adaptive.C146_phase_false",
    "Cbadc.Adaptive.C146_points_false",
    "Cbadc.Adaptive.C146_mismatch_false",
    "Cbadc.Adaptive.C146_impulse_partial",
    "Cbadc.Adaptive.C146_impulse_false",
    "Cbadc.Adaptive.C146_recursive_partial",
    "Cbadc.Adaptive.C146_recursive_false"
   ],
   "note": "Magnitudes, frequencies and values are right for one reference and the default number of points. False: the phases have the opposite sign and the impulse response is in reversed order because predict correlates; any other number of points raises or returns values of other frequencies; the report of the recursive filter is the quotient of the spectra of the forward and feedback taps (C146_recursive_partial), without the leading one of the denominator."
  },
  {
   "property": "C147",
   "status": "proved",
   "theorems": [
    "Cbadc.Filter.C147_waveforms",
    "Cbadc.Filter.C147_care",
    "Cbadc.Filter.C147_coefficients",
    "Cbadc.EndToEnd.C147_structures",
    "Cbadc.EndToEnd.C147_converter"
   ],
   "note": "for the numpy backend without mid_point, with exact solvers of the Riccati and differential equations; that the iterative solvers of SciPy reach the solution in floating point is not modelled"
  },
  {
   "property": "C148",
   "status": "proved",
   "theorems": [
    "Cbadc.Simulate.C148_period",
    "Cbadc.Simulate.C148_stuck",
    "Cbadc.Simulate.C148_run",
    "Cbadc.EndToEnd.C148_structures",
    "Cbadc.EndToEnd.C148_converter",
    "Cbadc.EndToEnd.C148_leap_frog"
   ],
   "note": "solve_ivp is an exact solver as in C28; thermal noise is the subject of C154"
  },
  {
   "property": "C149",
   "status": "proved",
   "theorems": [
    "Cbadc.EndToEnd.C149_mean",
    "Cbadc.EndToEnd.C149_estimators",
    "Cbadc.EndToEnd.C149_chain",
    "Cbadc.EndToEnd.C149_leap_frog",
    "Cbadc.EndToEnd.C149_leaky_false"
   ],
   "note": "C149_leaky_false shows that the condition on the first integrator cannot be dropped; exact arithmetic, exact solver and coefficients of the numpy backend"
  },
  {
   "property": "C15",
   "status": "proved",
   "theorems": [
    "Cbadc.Control.C15_accepts",
    "Cbadc.Control.C15_rejects",
    "Cbadc.Control.C15_reset"
   ],
   "note": ""
  },
  {
   "property": "C150",
   "status": "proved",
   "theorems": [
    "Cbadc.Units.C150_simulation",
    "Cbadc.Units.C150_coefficients",
    "Cbadc.Units.C150_mid_point",
    "Cbadc.Units.C150_same",
    "Cbadc.Units.C150_structures",
    "Cbadc.Units.C150_chain_synthesis",
    "Cbadc.Units.C150_leap_synthesis",
    "Cbadc.Units.C150_transition",
    "Cbadc.Units.C150_converter"
   ],
   "note": "exact arithmetic; C150_converter (from specifications to simulations) is for controls that decide at the start of the period (digital_control other than switch_cap); coefficients of the numpy backend"
  },
  {
   "property": "C151",
   "status": "proved",
   "theorems": [
    "Cbadc.Coordinates.C151_maps",
    "Cbadc.Coordinates.C151_simulation",
    "Cbadc.Coordinates.C151_care",
    "Cbadc.Coordinates.C151_coefficients",
    "Cbadc.Coordinates.C151_same",
    "Cbadc.Coordinates.C151_estimates",
    "Cbadc.Coordinates.C151_responses",
    "Cbadc.Coordinates.C151_eta2",
    "Cbadc.Coordinates.C151_converter"
   ],
   "note": "exact arithmetic; FullSimulator; coefficients of the numpy backend without mid_point, for Vf + Vb invertible (automatic for stabilising solutions of reachable and observable systems); the parallel estimator is not covered"
  },
  {
   "property": "C152",
   "status": "proved",
   "theorems": [
    "Cbadc.InputUnit.C152_simulation",
    "Cbadc.InputUnit.C152_care",
    "Cbadc.InputUnit.C152_coefficients",
    "Cbadc.InputUnit.C152_same",
    "Cbadc.InputUnit.C152_estimates",
    "Cbadc.InputUnit.C152_eta2",
    "Cbadc.InputUnit.C152_converter"
   ],
   "note": "exact arithmetic; FullSimulator; coefficients of the numpy backend; one common factor for all inputs; the parallel estimator is not covered"
  },
  {
   "property": "C153",
   "status": "proved",
   "theorems": [
    "Cbadc.Simulate.C153_causal",
    "Cbadc.Simulate.C153_strict",
    "Cbadc.Simulate.C153_shift",
    "Cbadc.Simulate.C153_estimates"
   ],
   "note": "exact arithmetic; FullSimulator with input signals (C153_shift also without); estimators whose iteration limit is not reached; pairs of simulations that run for ever (C148 says when they do)"
  },
  {
   "property": "C154",
   "status": "partial",
   "theorems": [
    "Cbadc.Simulate.C154_accepts",
    "Cbadc.Simulate.C154_none",
    "Cbadc.Simulate.C154_added",
    "Cbadc.Simulate.C154_run",
    "Cbadc.Simulate.C154_covariance_partial",
    "Cbadc.Simulate.C154_covariance_false",
    "Cbadc.Simulate.C154_singular_false",
    "Cbadc.Simulate.C154_density",
    "Cbadc.Simulate.C154_same_partial",
    "Cbadc.Simulate.C154_bounded"
   ],
   "note": "False of the code: the added vector has covariance T² S, not S (the Cholesky factor is multiplied by the clock period), and positive semidefinite but singular matrices raise LinAlgError. Proved: which matrices are accepted, that nothing else changes, the actual covariance and density, that both simulators agree (under the conditions of C29, which is itself partial), and boundedness under bounded noise."
  },
  {
   "property": "C155",
   "status": "partial",
   "theorems": [
    "Cbadc.Circuit.C155_assign",
    "Cbadc.Circuit.C155_attr",
    "Cbadc.Circuit.C155_error",
    "Cbadc.Circuit.C155_replace",
    "Cbadc.Circuit.C155_netlist_partial",
    "Cbadc.Circuit.C155_names_false",
    "Cbadc.Circuit.C155_passive_false"
   ],
   "note": "false for the nodes of the netlist (C155_names_false) and for resistors, capacitors and inductors (C155_passive_false); the connections made before an exception are not modelled"
  },
  {
   "property": "C156",
   "status": "proved",
   "theorems": [
    "Cbadc.Numbering.C156_simulation",
    "Cbadc.Numbering.C156_control",
    "Cbadc.Numbering.C156_care",
    "Cbadc.Numbering.C156_coefficients",
    "Cbadc.Numbering.C156_same",
    "Cbadc.Numbering.C156_estimates",
    "Cbadc.Numbering.C156_responses",
    "Cbadc.Numbering.C156_converter"
   ],
   "note": "exact arithmetic; FullSimulator; uniqueness of the coefficients for the numpy backend without mid_point; the parallel estimator is not covered"
  },
  {
   "property": "C157",
   "status": "partial",
   "theorems": [
    "Cbadc.Cards.C157_accepts",
    "Cbadc.Cards.C157_errors",
    "Cbadc.Cards.C157_card_partial",
    "Cbadc.Cards.C157_definition_partial",
    "Cbadc.Cards.C157_model",
    "Cbadc.Cards.C157_names_partial",
    "Cbadc.Cards.C157_names_false",
    "Cbadc.Cards.C157_parameters_false",
    "Cbadc.Cards.C157_comment_false",
    "Cbadc.Cards.C157_spectre_false"
   ],
   "note": "names and values without blanks and special characters; the templates are modelled by what they print; how Python prints numbers is a parameter; the full property is refuted by the `_false` theorems"
  },
  {
   "property": "C158",
   "status": "partial",
   "theorems": [
    "Cbadc.Estimator.C158_fir",
    "Cbadc.Estimator.C158_iir",
    "Cbadc.Estimator.C158_batch",
    "Cbadc.Estimator.C158_parallel",
    "Cbadc.Estimator.C158_unset",
    "Cbadc.Estimator.C158_fir_settles_partial",
    "Cbadc.Estimator.C158_iir_memory_partial",
    "Cbadc.Estimator.C158_iir_fades_partial",
    "Cbadc.Estimator.C158_batch_ended_partial",
    "Cbadc.Estimator.C158_batch_false",
    "Cbadc.Estimator.C158_limit_false",
    "Cbadc.Estimator.C158_exhausted_false",
    "Cbadc.Estimator.C158_iir_exhausted_false"
   ],
   "note": "Reading the second signal as the continuation of the first is proved for all four estimators, all histories and all signals, exceptions included. The restart is false: a batch estimator whose signal has ended raises StopIteration for every other signal (`C158_batch_false`), the iteration limit is not counted anew (`C158_limit_false`), and the call that meets the end of a signal rotates the window of the FIR filter and of the IIR filter so that the next estimate follows on the wrong vector (`C158_exhausted_false`, `C158_iir_exhausted_false`)."
  },
  {
   "property": "C159",
   "status": "partial",
   "theorems": [
    "Cbadc.Analog.C159_sinusoid",
    "Cbadc.Analog.C159_regular",
    "Cbadc.Analog.C159_least_partial",
    "Cbadc.Analog.C159_symbolic",
    "Cbadc.Analog.C159_agree",
    "Cbadc.Analog.C159_symbolic_none",
    "Cbadc.Analog.C159_symbolic_limit",
    "Cbadc.Analog.C159_general",
    "Cbadc.Analog.C159_general_input",
    "Cbadc.Analog.C159_dc_false",
    "Cbadc.Analog.C159_cancelled_false"
   ],
   "note": "The numerical answer is a response wherever there is one; at resonances without a response it is a finite number all the same (zero for every chain of integrators at zero frequency), and at resonances with cancelled poles it differs from the symbolic answer. Exact arithmetic; sympy's simplify is a parameter that keeps values."
  },
  {
   "property": "C16",
   "status": "partial",
   "theorems": [
    "Cbadc.Simulate.C16_phase_zero_partial",
    "Cbadc.Simulate.C16_other_phase_frozen",
    "Cbadc.Simulate.C16_false"
   ],
   "note": "False for any phase away from the start of the period: such a control is never updated. Proved for phases within tolerance of the start."
  },
  {
   "property": "C160",
   "status": "proved",
   "theorems": [
    "Cbadc.NgSpice.C160_saved",
    "Cbadc.NgSpice.C160_inputs",
    "Cbadc.NgSpice.C160_highlighted",
    "Cbadc.NgSpice.C160_states",
    "Cbadc.NgSpice.C160_headers",
    "Cbadc.NgSpice.C160_control",
    "Cbadc.NgSpice.C160_state_equation",
    "Cbadc.NgSpice.C160_refused"
   ],
   "note": "A raw file with a single time point and a missing vector (numpy stacks the missing value) is not covered; ngspice itself is assumed to record the vectors it is told to save."
  },
  {
   "property": "C161",
   "status": "partial",
   "theorems": [
    "Cbadc.Filters.C161_lowpass",
    "Cbadc.Filters.C161_highpass",
    "Cbadc.Filters.C161_bandpass_partial",
    "Cbadc.Filters.C161_transform_partial",
    "Cbadc.Filters.C161_cauer_partial",
    "Cbadc.Filters.C161_rejects",
    "Cbadc.Filters.C161_bandstop_false",
    "Cbadc.Filters.C161_bessel_false"
   ],
   "note": "Butterworth low-pass, high-pass and band-pass filters meet their specification (the band-pass if it is narrower than the square root of two times its centre, which rules out two pole pairs with the same imaginary parts); the others have the transfer function of scipy's prototype at the transformed frequency under that condition on poles and zeros; Cauer keeps what scipy's prototype keeps. False for Butterworth and Chebyshev type I band-stop filters of order two or more, which are rejected, and for the documented Bessel type, which always raises ValueError."
  },
  {
   "property": "C162",
   "status": "partial",
   "theorems": [
    "Cbadc.Analog.C162_input",
    "Cbadc.Analog.C162_control",
    "Cbadc.Analog.C162_numbers",
    "Cbadc.Analog.C162_superposition",
    "Cbadc.Analog.C162_functions_false"
   ],
   "note": "Everything stated is proved, except that the second returned value is a single function (the last) instead of the documented list, which is refuted for every system with two or more states. sympy's matrix_exp is taken to be the matrix exponential; sympy's rewriting of expressions is not modelled."
  },
  {
   "property": "C163",
   "status": "partial",
   "theorems": [
    "Cbadc.Mirror.C163_simulation",
    "Cbadc.Mirror.C163_estimates",
    "Cbadc.Mirror.C163_converter",
    "Cbadc.Mirror.C163_tie_false"
   ],
   "note": "Everything stated is proved for simulations without ties; that the symmetry fails on ties (the property without the proviso) is refuted by an integrator at rest. Solvers exact, no thermal noise; before the first decision the bits are those of the start."
  },
  {
   "property": "C164",
   "status": "partial",
   "theorems": [
    "Cbadc.Parts.C164_simulation",
    "Cbadc.Parts.C164_solvable",
    "Cbadc.Parts.C164_coefficients",
    "Cbadc.Parts.C164_estimates",
    "Cbadc.Parts.C164_converter",
    "Cbadc.Parts.C164_direct_false"
   ],
   "note": "Everything stated is proved for parts without direct path from the inputs to the control observation; with one the property is refuted by two stacked integrators. Solvers exact, no thermal noise, coefficients of the numerical backend with analytic waveforms."
  },
  {
   "property": "C165",
   "status": "partial",
   "theorems": [
    "Cbadc.Replay.C165_file",
    "Cbadc.Replay.C165_files",
    "Cbadc.Replay.C165_url",
    "Cbadc.Replay.C165_reads",
    "Cbadc.Replay.C165_fir",
    "Cbadc.Replay.C165_iir",
    "Cbadc.Replay.C165_batch_file",
    "Cbadc.Replay.C165_batch_generator",
    "Cbadc.Replay.C165_parallel",
    "Cbadc.Replay.C165_converter",
    "Cbadc.Replay.C165_files_false",
    "Cbadc.Replay.C165_end_false"
   ],
   "note": "Every recorded vector comes back from one file and, over http, from any number of files, and the estimates are those of the live signal. False: of several files read from disk only the first is delivered (`C165_files_false`), and the end of a file is struct.error instead of the end of the iteration (`C165_end_false`). The exact behaviour at the end is proved for all estimators: the batch estimator pads only when exactly one vector is missing, because a generator raises RuntimeError only once (`C165_batch_generator`)."
  },
  {
   "property": "C166",
   "status": "proved",
   "theorems": [
    "Cbadc.FrontendText.C166_opamp_text",
    "Cbadc.FrontendText.C166_exact"
   ],
   "note": "Text to circuit to state equation, both directions, for any number format with relative error below one on the occurring values; C166_exact for values read without error. The definitions of the op-amp and of the digital control are those of C52 and C54."
  },
  {
   "property": "C167",
   "status": "partial",
   "theorems": [
    "Cbadc.NgSpice.C167_samples_partial",
    "Cbadc.NgSpice.C167_state_false",
    "Cbadc.NgSpice.C167_table_false"
   ],
   "note": "samples of the positive terminals at the clock edges are proved; the rows are not the states (C167_state_false) and the table is never returned (C167_table_false)"
  },
  {
   "property": "C168",
   "status": "proved",
   "theorems": [
    "Cbadc.FrontendText.C168_gmc_text",
    "Cbadc.FrontendText.C168_division",
    "Cbadc.FrontendText.C168_exact"
   ],
   "note": "Texts to nested circuits to state equation, both directions, finite and infinite gain, for any number format with relative error below one on the occurring values; C168_division is the second error; C168_exact for values read without error. The definitions printed for the digital control are those of C54 and are not part of the texts here."
  },
  {
   "property": "C169",
   "status": "proved",
   "theorems": [
    "Cbadc.Estimator.C169_range",
    "Cbadc.Estimator.C169_attained",
    "Cbadc.Estimator.C169_bit_error",
    "Cbadc.Estimator.C169_fixed"
   ],
   "note": "C169_fixed is an equivalence; the failing stream is constructed. FIR filters only; exact arithmetic."
  },
  {
   "property": "C17",
   "status": "proved",
   "theorems": [
    "Cbadc.Control.C17_value",
    "Cbadc.Control.C17_range",
    "Cbadc.Control.C17_monotone",
    "Cbadc.Control.C17_thresholds",
    "Cbadc.Control.C17_half_step",
    "Cbadc.Control.C17_one_level",
    "Cbadc.Control.C17_decision",
    "Cbadc.Control.C17_history"
   ],
   "note": "Exact arithmetic. C17_history gives signal and decision after every history of updates and resets; after a reset the levels are stored as integers (see C14_multilevel_false)."
  },
  {
   "property": "C170",
   "status": "partial",
   "theorems": [
    "Cbadc.ClosedLoop.C170_follows_partial",
    "Cbadc.ClosedLoop.C170_gmc_partial",
    "Cbadc.ClosedLoop.C170_limit_partial",
    "Cbadc.ClosedLoop.C170_observation_false"
   ],
   "note": "The partial theorems assume that controls are not observed directly (At = 0); C170_observation_false shows the simulator inverting every decision although the control applied at the decision would keep it. Comparators as in C128; exact solution of the differential equations on both sides."
  },
  {
   "property": "C171",
   "status": "partial",
   "theorems": [
    "Cbadc.ClosedLoop.C171_opamp_partial",
    "Cbadc.ClosedLoop.C171_gmc_partial",
    "Cbadc.ClosedLoop.C171_signals_false"
   ],
   "note": "The partial theorems demand that the simulator gets the voltages in units of the supply; C171_signals_false shows that this excludes giving the same signals to both. Controls are not observed directly (At = 0, see C170_observation_false). Ideal amplifiers, comparators as in C128, exact solution of the differential equations on both sides; the terminals of test bench and frontend of the same name are the same node."
  },
  {
   "property": "C172",
   "status": "partial",
   "theorems": [
    "Cbadc.ClosedLoop.C172_opamp_partial",
    "Cbadc.ClosedLoop.C172_gmc_partial",
    "Cbadc.ClosedLoop.C172_first_false"
   ],
   "note": "Under the conditions of C171 (which is partial for the reasons given there). Equality of all FIR estimates is false (C172_first_false); with down-sampling the shift by one vector is no shift of estimates and nothing is claimed."
  },
  {
   "property": "C173",
   "status": "partial",
   "theorems": [
    "Cbadc.ClosedLoop.C173_gmc_partial",
    "Cbadc.ClosedLoop.C173_leakage_false"
   ],
   "note": "Partial for the reasons given in C170 and C171: the observations have to be clear of zero, no direct path from the controls, exact solutions on both sides. Without the contribution of the leakage the claim is false (C173_leakage_false)."
  },
  {
   "property": "C174",
   "status": "partial",
   "theorems": [
    "Cbadc.ClosedLoop.C174_tolerance_partial",
    "Cbadc.ClosedLoop.C174_limit_partial",
    "Cbadc.ClosedLoop.C174_estimates",
    "Cbadc.ClosedLoop.C174_tie_false"
   ],
   "note": "The observations have to be clear of the thresholds; without that the claim is false (C174_tie_false). Exact solutions of the differential equation in both simulations, FullSimulator with inputs."
  },
  {
   "property": "C175",
   "status": "partial",
   "theorems": [
    "Cbadc.ClosedLoop.C175_opamp_text_partial",
    "Cbadc.ClosedLoop.C175_gmc_text_partial"
   ],
   "note": "Partial for the reasons given in C170 and C171: the observations have to be clear of zero (false otherwise: C174_tie_false), no direct path from the controls, exact solutions on both sides. The digital control and the comparators are the circuit objects, not read from their text."
  },
  {
   "property": "C176",
   "status": "partial",
   "theorems": [
    "Cbadc.CsvText.C176_row",
    "Cbadc.CsvText.C176_table",
    "Cbadc.CsvText.C176_wrong_length",
    "Cbadc.CsvText.C176_source",
    "Cbadc.CsvText.C176_fir",
    "Cbadc.CsvText.C176_iir",
    "Cbadc.CsvText.C176_batch",
    "Cbadc.CsvText.C176_converter",
    "Cbadc.CsvText.C176_voltages_false",
    "Cbadc.CsvText.C176_observer_false",
    "Cbadc.CsvText.C176_range_false"
   ],
   "note": "Proved for tables of numbers of at most eight bits. False for larger numbers and columns separated by blanks only (C176_range_false), for voltages with decimals (C176_voltages_false), and for the observer's own file (C176_observer_false). np.fromstring is modelled, not verified; the parallel estimator is not restated (C34 equates it with the batch estimator)."
  },
  {
   "property": "C177",
   "status": "proved",
   "theorems": [
    "Cbadc.Synthesis.C177_factor",
    "Cbadc.Synthesis.C177_in_band",
    "Cbadc.Synthesis.C177_clock"
   ],
   "note": "Exact integration by sympy is assumed. In C177_in_band delta is not given, as in C81_in_band."
  },
  {
   "property": "C178",
   "status": "proved",
   "theorems": [
    "Cbadc.Synthesis.C178_chain",
    "Cbadc.Synthesis.C178_leap_frog"
   ],
   "note": "Exact arithmetic. Resonances are excluded in C178_leap_frog (and zero frequency in C178_chain): numpy's pseudo-inverse reports no gain there, see C159_dc_false. The edge is shown not to be a resonance."
  },
  {
   "property": "C179",
   "status": "partial",
   "theorems": [
    "Cbadc.Spectrum.C179_total",
    "Cbadc.Spectrum.C179_affine",
    "Cbadc.Spectrum.C179_rms_partial",
    "Cbadc.Spectrum.C179_rms_false",
    "Cbadc.Spectrum.C179_ratio",
    "Cbadc.Spectrum.C179_ratio_false"
   ],
   "note": "Proved for the spectrum. False for the rms values: the width of a bin is taken as the sampling frequency over the number of bins of the one-sided spectrum, which nearly doubles the power, and signal_rms has a factor of the window that noise_rms and snr do not have. One-dimensional sequences that are not empty; scipy's welch and blackman in exact arithmetic, as documented."
  },
  {
   "property": "C18",
   "status": "partial",
   "theorems": [
    "Cbadc.Control.C18_false",
    "Cbadc.Control.C18_offsets_ignored",
    "Cbadc.Control.C18_length_partial"
   ],
   "note": "False: the base class constructor overwrites the offsets. Only the length check holds."
  },
  {
   "property": "C180",
   "status": "partial",
   "theorems": [
    "Cbadc.Spectrum.C180_tone",
    "Cbadc.Spectrum.C180_found",
    "Cbadc.Spectrum.C180_snr",
    "Cbadc.Spectrum.C180_width_false"
   ],
   "note": "Proved for masks of width 6 and more and tones at least three bins from either end. False for width 5 (`C180_width_false`): the mask leaves out the last of the five bins. One-dimensional sequences; scipy's welch in exact arithmetic."
  },
  {
   "property": "C181",
   "status": "proved",
   "theorems": [
    "Cbadc.Spectrum.C181_mixture",
    "Cbadc.Spectrum.C181_found",
    "Cbadc.Spectrum.C181_power",
    "Cbadc.Spectrum.C181_distortion"
   ],
   "note": "One-dimensional sequences; scipy's welch in exact arithmetic. The SNR itself is a division by zero here (numpy: inf) and not spoken about."
  },
  {
   "property": "C182",
   "status": "proved",
   "theorems": [
    "Cbadc.Spectrum.C182_peaks",
    "Cbadc.Spectrum.C182_ratios",
    "Cbadc.Spectrum.C182_rms",
    "Cbadc.Spectrum.C182_tail"
   ],
   "note": "One-dimensional sequences that are not empty; scipy's welch in exact arithmetic. Divisions by zero (numpy: inf or nan) give 0 on both sides."
  },
  {
   "property": "C183",
   "status": "proved",
   "theorems": [
    "Cbadc.Spectrum.C183_found",
    "Cbadc.Spectrum.C183_clear",
    "Cbadc.Spectrum.C183_snr"
   ],
   "note": "One-dimensional sequences; scipy's welch in exact arithmetic. The bounds are safe ones, not the best ones: a disturbance may be anything, also correlated with the tone."
  },
  {
   "property": "C184",
   "status": "proved",
   "theorems": [
    "Cbadc.Spectrum.C184_triangle",
    "Cbadc.Spectrum.C184_close",
    "Cbadc.Spectrum.C184_tone",
    "Cbadc.Spectrum.C184_snr"
   ],
   "note": "One-dimensional sequences, masks without repetitions and within the spectrum; scipy's welch in exact arithmetic."
  },
  {
   "property": "C185",
   "status": "proved",
   "theorems": [
    "Cbadc.Estimator.C185_word_length"
   ],
   "note": "Without an offset (C121_offset_false) and for bits 0 and 1 as control signal, as in C121; scipy's welch in exact arithmetic. The floating-point filter itself is exact here."
  },
  {
   "property": "C186",
   "status": "proved",
   "theorems": [
    "Cbadc.Estimator.C186_spectra"
   ],
   "note": "Exact arithmetic; the filter matrices are assumed to have vanishing powers, which C144 proves for chains and leap-frogs. Without downsampling, offset and limit for the FIR and IIR filters."
  },
  {
   "property": "C19",
   "status": "proved",
   "theorems": [
    "Cbadc.Control.C19_signal",
    "Cbadc.Control.C19_rows_in_order",
    "Cbadc.Control.C19_ctor"
   ],
   "note": "The random table is a parameter; random_sequence_length >= 1."
  },
  {
   "property": "C20",
   "status": "proved",
   "theorems": [
    "Cbadc.Simulate.C20_bounded"
   ],
   "note": "All runs of the full simulator with an exact solver, all times. Stated for |beta_n| <= |kappa_n| and leak rho_n <= 0, which includes kappa = beta without local feedback."
  },
  {
   "property": "C21",
   "status": "partial",
   "theorems": [
    "Cbadc.Analog.C21_accepted_consistent",
    "Cbadc.Analog.C21_consistent_accepted",
    "Cbadc.Analog.C21_entries",
    "Cbadc.Analog.C21_derivative_partial",
    "Cbadc.Analog.C21_derivative_false",
    "Cbadc.Analog.C21_signal_observation"
   ],
   "note": "Acceptance iff consistency is proved. False for the derivative of a system without Gamma, which raises."
  },
  {
   "property": "C22",
   "status": "partial",
   "theorems": [
    "Cbadc.Analog.C22_accepts",
    "Cbadc.Analog.C22_false",
    "Cbadc.Analog.C22_chain_partial",
    "Cbadc.Analog.C22_transfer_function_partial"
   ],
   "note": "False when the first system has a different number of outputs and inputs (chain raises). For every accepted list the product law is proved."
  },
  {
   "property": "C23",
   "status": "partial",
   "theorems": [
    "Cbadc.Analog.C23_accepts",
    "Cbadc.Analog.C23_trajectory",
    "Cbadc.Analog.C23_signal_observation",
    "Cbadc.Analog.C23_transfers",
    "Cbadc.Analog.C23_transfer_function",
    "Cbadc.Analog.C23_control_observation_partial",
    "Cbadc.Analog.C23_control_observation_false"
   ],
   "note": "Transfer function and trajectories are proved. False for the control observation of parts with B_tilde, which the stack drops."
  },
  {
   "property": "C24",
   "status": "proved",
   "theorems": [
    "Cbadc.Analog.C24_tf2abcd"
   ],
   "note": "Exact arithmetic over any field."
  },
  {
   "property": "C25",
   "status": "proved",
   "theorems": [
    "Cbadc.Analog.C25_sos2abcd"
   ],
   "note": "Exact arithmetic over any field; a_0 = 0 is excluded (numpy yields infinities)."
  },
  {
   "property": "C26",
   "status": "partial",
   "theorems": [
    "Cbadc.Analog.C26_zpk2abcd_partial",
    "Cbadc.Analog.C26_conjugate_partial",
    "Cbadc.Analog.C26_real_zeros_partial",
    "Cbadc.Analog.C26_negative_gain_false",
    "Cbadc.Analog.C26_repeated_pole_false"
   ],
   "note": "False for negative gains (sign lost) and repeated real poles (division by zero). Proved with |k| for every accepted input on which the tolerances are harmless. Conjugate patterns without ties and with at most one real pole and zero are accepted."
  },
  {
   "property": "C27",
   "status": "partial",
   "theorems": [
    "Cbadc.Analog.C27_false",
    "Cbadc.Analog.C27_observation_partial"
   ],
   "note": "False when only one of u and s is given. Proved when both or neither are."
  },
  {
   "property": "C28",
   "status": "partial",
   "theorems": [
    "Cbadc.Simulate.C28_solution_partial",
    "Cbadc.Simulate.C28_deterministic",
    "Cbadc.Simulate.C28_no_input_false"
   ],
   "note": "False without input signals (the right-hand side uses the state at the start of the period). Proved with input signals, for an exact solver and without thermal noise."
  },
  {
   "property": "C29",
   "status": "partial",
   "theorems": [
    "Cbadc.Simulate.C29_exact_partial",
    "Cbadc.Simulate.C29_run_partial",
    "Cbadc.Simulate.C29_refused",
    "Cbadc.Simulate.C29_piecewise_false",
    "Cbadc.Simulate.C29_output_false",
    "Cbadc.Simulate.C29_resonance_false"
   ],
   "note": "False for signals that change at the end of a period, for sinusoids into systems whose outputs are not their states, and at resonances; C29_refused tells which calls raise. Proved otherwise, for exact solvers."
  },
  {
   "property": "C30",
   "status": "proved",
   "theorems": [
    "Cbadc.Simulate.C30_items"
   ],
   "note": "Array objects modelled by identity."
  },
  {
   "property": "C31",
   "status": "proved",
   "theorems": [
    "Cbadc.Estimator.C31_fir_estimate",
    "Cbadc.Estimator.C31_fir_accepts",
    "Cbadc.Estimator.C31_fir_downsample_too_large"
   ],
   "note": "Exact arithmetic; floating-point branch of the filter; coefficient solver is a parameter."
  },
  {
   "property": "C32",
   "status": "proved",
   "theorems": [
    "Cbadc.Estimator.C32_batch_estimate",
    "Cbadc.Estimator.C32_batch_accepts"
   ],
   "note": "Exact arithmetic; coefficient solver is a parameter."
  },
  {
   "property": "C33",
   "status": "proved",
   "theorems": [
    "Cbadc.Estimator.C33_iir_estimate",
    "Cbadc.Estimator.C33_iir_zero_lookahead",
    "Cbadc.Estimator.C33_iir_accepts"
   ],
   "note": "Exact arithmetic. K2 = 0 is accepted by the constructor but every call then fails."
  },
  {
   "property": "C34",
   "status": "proved",
   "theorems": [
    "Cbadc.Estimator.C34_parallel_eq_batch",
    "Cbadc.Estimator.C34_same_acceptance"
   ],
   "note": "Eigen-decompositions are parameters assumed correct."
  },
  {
   "property": "C35",
   "status": "proved",
   "theorems": [
    "Cbadc.Estimator.C35_fir_iir",
    "Cbadc.Estimator.C35_fir_eq_iir",
    "Cbadc.Estimator.C35_iir_eq_batch"
   ],
   "note": ""
  },
  {
   "property": "C36",
   "status": "partial",
   "theorems": [
    "Cbadc.Estimator.C36_false",
    "Cbadc.Estimator.C36_fir_count_partial",
    "Cbadc.Estimator.C36_iir_count_partial",
    "Cbadc.Estimator.C36_batch_count_partial"
   ],
   "note": "False as stated (batch start counts as an iteration, 0 means no limit, downsampling divides the count); the exact counts are proved."
  },
  {
   "property": "C37",
   "status": "proved",
   "theorems": [
    "Cbadc.Estimator.C37_downsample_is_decimation"
   ],
   "note": ""
  },
  {
   "property": "C38",
   "status": "partial",
   "theorems": [
    "Cbadc.Estimator.C38_batch_false",
    "Cbadc.Estimator.C38_fir_no_invention_partial",
    "Cbadc.Estimator.C38_fir_end_partial",
    "Cbadc.Estimator.C38_iir_no_invention_partial",
    "Cbadc.Estimator.C38_iir_end_partial",
    "Cbadc.Estimator.C38_batch_end_partial"
   ],
   "note": "False for the batch estimator, which fabricates zero samples (its exact behaviour at the end of the stream is proved for a source that keeps raising RuntimeError until the batch is full; for a generator, which raises it only once, see `C165_batch_generator`); proved for FIR and IIR."
  },
  {
   "property": "C39",
   "status": "proved",
   "theorems": [
    "Cbadc.Estimator.C39_window",
    "Cbadc.Estimator.C39_affine",
    "Cbadc.Estimator.C39_offset"
   ],
   "note": ""
  },
  {
   "property": "C40",
   "status": "partial",
   "theorems": [
    "Cbadc.Estimator.C40_false",
    "Cbadc.Estimator.C40_convolve_cascade_partial",
    "Cbadc.Estimator.C40_convolve_accepts"
   ],
   "note": "False as stated (odd tap counts raise, taps outside the window are cut); the exact cut is proved."
  },
  {
   "property": "C41",
   "status": "proved",
   "theorems": [
    "Cbadc.Analog.C41_spec",
    "Cbadc.Analog.C41_bounds",
    "Cbadc.Analog.C41_single_input",
    "Cbadc.Analog.C41_monotone",
    "Cbadc.Analog.C41_half",
    "Cbadc.Analog.C41_band_edge",
    "Cbadc.Analog.C41_noise_bound"
   ],
   "note": "pinv is assumed to return a Moore-Penrose inverse."
  },
  {
   "property": "C42",
   "status": "partial",
   "theorems": [
    "Cbadc.Adaptive.C42_rls_partial",
    "Cbadc.Adaptive.C42_references_false"
   ],
   "note": "Proved for one reference and a window length different from the number of channels (see C44). False for several references: rls raises."
  },
  {
   "property": "C43",
   "status": "partial",
   "theorems": [
    "Cbadc.Adaptive.C43_gradient_partial",
    "Cbadc.Adaptive.C43_descent_partial",
    "Cbadc.Adaptive.C43_references_false",
    "Cbadc.Adaptive.C43_offset_false"
   ],
   "note": "Proved for one reference, real and complex data. False for several references: gradient raises, or offsets are mixed up when the batch has as many samples as references."
  },
  {
   "property": "C44",
   "status": "partial",
   "theorems": [
    "Cbadc.Adaptive.C44_windows_partial",
    "Cbadc.Adaptive.C44_predict_partial",
    "Cbadc.Adaptive.C44_square_false",
    "Cbadc.Adaptive.C44_last_window_false"
   ],
   "note": "False when the number of channels equals the window length (transposed windows), and the last window is missing. Proved otherwise."
  },
  {
   "property": "C45",
   "status": "proved",
   "theorems": [
    "Cbadc.Spectrum.C45_range",
    "Cbadc.Spectrum.C45_windows",
    "Cbadc.Spectrum.C45_peak",
    "Cbadc.Spectrum.C45_separated",
    "Cbadc.Spectrum.C45_single",
    "Cbadc.Spectrum.C45_empty"
   ],
   "note": "Minimum distance and mask width nonnegative (mask width at least 1) where peaks are described; range and order for all arguments. An empty spectrum raises ValueError."
  },
  {
   "property": "C46",
   "status": "proved",
   "theorems": [
    "Cbadc.Fom.C46_enob_inverse",
    "Cbadc.Fom.C46_dB_inverse",
    "Cbadc.Fom.C46_ideal_quantiser",
    "Cbadc.Fom.C46_documented"
   ],
   "note": "Exact real arithmetic."
  },
  {
   "property": "C47",
   "status": "proved",
   "theorems": [
    "Cbadc.Fom.C47_walden",
    "Cbadc.Fom.C47_schreier",
    "Cbadc.Fom.C47_osr"
   ],
   "note": "Exact real arithmetic."
  },
  {
   "property": "C48",
   "status": "proved",
   "theorems": [
    "Cbadc.Synthesis.C48_osr",
    "Cbadc.Synthesis.C48_period",
    "Cbadc.Synthesis.C48_bounded",
    "Cbadc.Synthesis.C48_unsupported"
   ],
   "note": "A clock period below the 2e-14 s that the clock accepts raises. Exact arithmetic."
  },
  {
   "property": "C49",
   "status": "partial",
   "theorems": [
    "Cbadc.Synthesis.C49_false",
    "Cbadc.Synthesis.C49_switch_cap_partial"
   ],
   "note": "False: the delay is validated and then ignored unless the switched-capacitor control is requested. Proved for the latter."
  },
  {
   "property": "C50",
   "status": "partial",
   "theorems": [
    "Cbadc.SigmaDelta.C50_iff_partial",
    "Cbadc.SigmaDelta.C50_local_partial",
    "Cbadc.SigmaDelta.C50_refused",
    "Cbadc.SigmaDelta.C50_order_false",
    "Cbadc.SigmaDelta.C50_diagonal_false"
   ],
   "note": "Exact condition for a faithful import of orders 1 to 10; false on the diagonal, for tiny coefficients, an unobserved last state, and for every order from 11 on."
  },
  {
   "property": "C51",
   "status": "partial",
   "theorems": [
    "Cbadc.Circuit.C51_partial",
    "Cbadc.Circuit.C51_false"
   ],
   "note": "False when a connection joins two existing nets: only one terminal moves. Proved for all sequences that never do that."
  },
  {
   "property": "C52",
   "status": "proved",
   "theorems": [
    "Cbadc.Circuit.C52_state_equation",
    "Cbadc.Circuit.C52_realisable"
   ],
   "note": "Ideal op-amps; nonzero integration capacitance. The values are real numbers; the text of the netlist is modelled as instance name, device value and node names."
  },
  {
   "property": "C53",
   "status": "proved",
   "theorems": [
    "Cbadc.Circuit.C53_state_equation",
    "Cbadc.Circuit.C53_realisable"
   ],
   "note": "Ideal transconductors (DC_gain=np.inf), nonzero capacitance, a digital control that senses the states without drawing current."
  },
  {
   "property": "C54",
   "status": "partial",
   "theorems": [
    "Cbadc.Circuit.C54_partial",
    "Cbadc.Circuit.C54_false",
    "Cbadc.Circuit.C54_positions",
    "Cbadc.Circuit.C54_index",
    "Cbadc.Circuit.C54_terminals"
   ],
   "note": "False for insertions at a position, which accept duplicate names. Proved for histories of fresh names at valid positions; rejection of duplicates proved for additions at the end."
  },
  {
   "property": "C55",
   "status": "partial",
   "theorems": [
    "Cbadc.Signal.C55_periodic",
    "Cbadc.Signal.C55_waveform",
    "Cbadc.Signal.C55_bounded_partial",
    "Cbadc.Signal.C55_swing_false",
    "Cbadc.Signal.C55_full_duty_false",
    "Cbadc.Signal.C55_next_tick_partial",
    "Cbadc.Signal.C55_next_tick_bounds",
    "Cbadc.Signal.C55_next_tick_false"
   ],
   "note": "Waveform proved for the default swing and periodicity for all clocks. False: swings below 2 are exceeded, the documented duty cycle 1 is rejected, next_tick uses an absolute tolerance of 1e-8 s and returns non-edges for fast clocks."
  },
  {
   "property": "C56",
   "status": "partial",
   "theorems": [
    "Cbadc.Signal.C56_finite_alphabet",
    "Cbadc.Signal.C56_reference_values",
    "Cbadc.Signal.C56_finite_held",
    "Cbadc.Signal.C56_finite_sequence",
    "Cbadc.Signal.C56_uniform_interval",
    "Cbadc.Signal.C56_uniform_partial",
    "Cbadc.Signal.C56_uniform_false",
    "Cbadc.Signal.C56_tick"
   ],
   "note": "Proved for binary, ternary and Gaussian signals. For uniform signals the holding time holds only if evaluations are at most one period apart."
  },
  {
   "property": "C57",
   "status": "partial",
   "theorems": [
    "Cbadc.Signal.C57_energy_partial",
    "Cbadc.Signal.C57_modulator",
    "Cbadc.Signal.C57_random_false"
   ],
   "note": "Proved for baseband signals that are functions of time. False for random baseband signals, which are drawn again for the second member of the pair."
  },
  {
   "property": "C58",
   "status": "partial",
   "theorems": [
    "Cbadc.Signal.C58_sum_partial",
    "Cbadc.Signal.C58_product_partial",
    "Cbadc.Signal.C58_function_of_time",
    "Cbadc.Signal.C58_held_false"
   ],
   "note": "False for ZeroOrderHold, whose call operator replaces its data. Proved for all other combinations of any depth."
  },
  {
   "property": "C59",
   "status": "partial",
   "theorems": [
    "Cbadc.Control.C59_dither_delay_false",
    "Cbadc.Control.C59_dither_contribution_partial"
   ],
   "note": "False before the excess delay (missing attribute); proved from the delay on."
  },
  {
   "property": "C60",
   "status": "partial",
   "theorems": [
    "Cbadc.Analog.C60_chain",
    "Cbadc.Analog.C60_size_mismatch_false"
   ],
   "note": "Network equations proved for matching sizes. Size mismatches are not detected."
  },
  {
   "property": "C61",
   "status": "proved",
   "theorems": [
    "Cbadc.Analog.C61_leap_frog"
   ],
   "note": "For vectors of matching sizes and kappa given as a column."
  },
  {
   "property": "C62",
   "status": "proved",
   "theorems": [
    "Cbadc.Simulate.C62_leap_frog_bounded"
   ],
   "note": "As C20, for leap-frog structures whose controls dominate both couplings."
  },
  {
   "property": "C63",
   "status": "proved",
   "theorems": [
    "Cbadc.Fom.C63_contours",
    "Cbadc.Fom.C63_selection",
    "Cbadc.Fom.C63_envelopes"
   ],
   "note": "Exact real arithmetic; the survey data base is an arbitrary list of rows."
  },
  {
   "property": "C64",
   "status": "partial",
   "theorems": [
    "Cbadc.Adaptive.C64_lms_partial",
    "Cbadc.Adaptive.C64_one_window_false",
    "Cbadc.Adaptive.C64_last_window_false",
    "Cbadc.Adaptive.C64_reject"
   ],
   "note": "Proved for window lengths different from the number of channels and for the windows actually produced. False for the last window: a signal of one window trains nothing, and no batching of its windows gives that result. Permutations are arbitrary; the inputs that are rejected are covered."
  },
  {
   "property": "C65",
   "status": "partial",
   "theorems": [
    "Cbadc.Adaptive.C65_real_partial",
    "Cbadc.Adaptive.C65_complex_false"
   ],
   "note": "Proved for real data with an exact solver. False for complex data."
  },
  {
   "property": "C66",
   "status": "partial",
   "theorems": [
    "Cbadc.Adaptive.C66_trained_partial",
    "Cbadc.Adaptive.C66_after_lstsq_false"
   ],
   "note": "False after lstsq. Proved for any lms and rls training."
  },
  {
   "property": "C67",
   "status": "partial",
   "theorems": [
    "Cbadc.Adaptive.C67_iir_partial",
    "Cbadc.Adaptive.C67_references_false"
   ],
   "note": "Proved for one reference. False for several references: predict raises."
  },
  {
   "property": "C68",
   "status": "partial",
   "theorems": [
    "Cbadc.Signal.C68_delay_partial",
    "Cbadc.Signal.C68_duty_cycle_false"
   ],
   "note": "False for duty cycles other than 1/2. Proved for 1/2."
  },
  {
   "property": "C69",
   "status": "partial",
   "theorems": [
    "Cbadc.Signal.C69_ramp_partial",
    "Cbadc.Signal.C69_amplitude_false",
    "Cbadc.Signal.C69_sinusoidal",
    "Cbadc.Signal.C69_sinc"
   ],
   "note": "Sinusoids and sinc pulses proved. Ramps: false unless the period is one second, since the slope, not the swing, is the amplitude."
  },
  {
   "property": "C70",
   "status": "partial",
   "theorems": [
    "Cbadc.Signal.C70_hold_partial",
    "Cbadc.Signal.C70_negative_time_false"
   ],
   "note": "Proved for times from zero on. False for negative times."
  },
  {
   "property": "C71",
   "status": "partial",
   "theorems": [
    "Cbadc.Signal.C71_combined",
    "Cbadc.Signal.C71_finite_partial",
    "Cbadc.Signal.C71_rc_false",
    "Cbadc.Signal.C71_gaussian_false"
   ],
   "note": "False for RC responses (flagged but decaying) and Gaussian signals (no flag, cannot be combined). Proved for all other expressions without state."
  },
  {
   "property": "C72",
   "status": "partial",
   "theorems": [
    "Cbadc.Signal.C72_forms_partial",
    "Cbadc.Signal.C72_before_start_false",
    "Cbadc.Signal.C72_pulse_false",
    "Cbadc.Signal.C72_sinc_false"
   ],
   "note": "False for sinc pulses, pulses that end, and before the start of delayed responses. Proved otherwise. Clock.symbolic is not modelled."
  },
  {
   "property": "C73",
   "status": "partial",
   "theorems": [
    "Cbadc.Signal.C73_repeat_partial",
    "Cbadc.Signal.C73_history_false",
    "Cbadc.Signal.C73_uniform_false"
   ],
   "note": "Proved for immediate repetition of binary, ternary and Gaussian signals. False with other evaluations in between, and for uniform signals."
  },
  {
   "property": "C74",
   "status": "partial",
   "theorems": [
    "Cbadc.Signal.C74_default_partial",
    "Cbadc.Signal.C74_phase_offset_false"
   ],
   "note": "False: phase and offset are ignored. Proved for zero phase and offset."
  },
  {
   "property": "C75",
   "status": "partial",
   "theorems": [
    "Cbadc.Analog.C75_matrix_false",
    "Cbadc.Analog.C75_shape_false",
    "Cbadc.Analog.C75_partial"
   ],
   "note": "False: the output matrix is not applied and N != N_tilde raises; proved for C = I."
  },
  {
   "property": "C76",
   "status": "partial",
   "theorems": [
    "Cbadc.Analog.C76_false",
    "Cbadc.Analog.C76_partial"
   ],
   "note": "False: magnitudes are summed without phase; proved for one output."
  },
  {
   "property": "C77",
   "status": "partial",
   "theorems": [
    "Cbadc.Spectrum.C77_power",
    "Cbadc.Spectrum.C77_consistent",
    "Cbadc.Spectrum.C77_scale",
    "Cbadc.Spectrum.C77_no_noise",
    "Cbadc.Spectrum.C77_default_false"
   ],
   "note": "The last clause is false: with no harmonics given the default mask counts the DC bin as a harmonic. The other clauses are proved."
  },
  {
   "property": "C78",
   "status": "proved",
   "theorems": [
    "Cbadc.Spectrum.C78_reader",
    "Cbadc.Spectrum.C78_round_trip"
   ],
   "note": "np.fromstring on one line is a parameter."
  },
  {
   "property": "C79",
   "status": "partial",
   "theorems": [
    "Cbadc.Analog.C79_trajectory",
    "Cbadc.Analog.C79_output",
    "Cbadc.Analog.C79_control_observation_partial",
    "Cbadc.Analog.C79_control_observation_false"
   ],
   "note": "The control observation part is false for parts with a B_tilde (chain drops it); proved for parts without."
  },
  {
   "property": "C80",
   "status": "proved",
   "theorems": [
    "Cbadc.Synthesis.C80_design",
    "Cbadc.Synthesis.C80_snr",
    "Cbadc.Synthesis.C80_faster",
    "Cbadc.Synthesis.C80_in_band"
   ],
   "note": "Continuous default control. Exact real arithmetic."
  },
  {
   "property": "C81",
   "status": "proved",
   "theorems": [
    "Cbadc.Synthesis.C81_osr",
    "Cbadc.Synthesis.C81_enob",
    "Cbadc.Synthesis.C81_period",
    "Cbadc.Synthesis.C81_resonances",
    "Cbadc.Synthesis.C81_in_band"
   ],
   "note": "g_i (a sympy integral) is a parameter, given its defining equation where it matters; C177 evaluates it."
  },
  {
   "property": "C82",
   "status": "partial",
   "theorems": [
    "Cbadc.Synthesis.C82_false",
    "Cbadc.Synthesis.C82_partial"
   ],
   "note": "False for two or more integrators (witnessed for every second-order OSR design); proved for one integrator."
  },
  {
   "property": "C83",
   "status": "partial",
   "theorems": [
    "Cbadc.SigmaDelta.C83_partial",
    "Cbadc.SigmaDelta.C83_inactive_false"
   ],
   "note": "False for inactive coefficients. Proved for files whose coefficients are all active and connect each pair of states at most once."
  },
  {
   "property": "C84",
   "status": "partial",
   "theorems": [
    "Cbadc.Synthesis.C84_demodulated",
    "Cbadc.Synthesis.C84_observations_partial",
    "Cbadc.Synthesis.C84_transfer_partial",
    "Cbadc.Synthesis.C84_scalar",
    "Cbadc.Synthesis.C84_dropped_false"
   ],
   "note": "False when the baseband system has a feed-through D, and a delayed control loses its delay. Proved for the rest."
  },
  {
   "property": "C85",
   "status": "partial",
   "theorems": [
    "Cbadc.Synthesis.C85_period",
    "Cbadc.Synthesis.C85_delay",
    "Cbadc.Synthesis.C85_rejected",
    "Cbadc.Synthesis.C85_delay_false"
   ],
   "note": "False: the control is built without the delay delta_DC that the control observation compensates for. The period identity and the rejection are proved."
  },
  {
   "property": "C86",
   "status": "proved",
   "theorems": [
    "Cbadc.Synthesis.C86_bounded",
    "Cbadc.Synthesis.C86_every_start",
    "Cbadc.Synthesis.C86_leap_frog"
   ],
   "note": "Default control (no modulate), any phase, no requested delay. Exact arithmetic; the ODE solver is taken to be exact."
  },
  {
   "property": "C87",
   "status": "partial",
   "theorems": [
    "Cbadc.Synthesis.C87_osr_partial",
    "Cbadc.Synthesis.C87_simulation_false",
    "Cbadc.Synthesis.C87_enob_false"
   ],
   "note": "The analog system for OSR specifications is proved; the frontend can never be simulated because it has half the controls, and ENOB and SNR specifications always raise."
  },
  {
   "property": "C88",
   "status": "partial",
   "theorems": [
    "Cbadc.Synthesis.C88_partial",
    "Cbadc.Synthesis.C88_lossless",
    "Cbadc.Synthesis.C88_width_false",
    "Cbadc.Synthesis.C88_wide_partial",
    "Cbadc.Synthesis.C88_constant_partial",
    "Cbadc.Synthesis.C88_lossy_false"
   ],
   "note": "Proved for widths 3 and 4. Every other width raises with the default resonances and with one resonance for every pair of parts; with a longer list it is accepted, lossless if all resonances are equal, and not lossless in general."
  },
  {
   "property": "C89",
   "status": "partial",
   "theorems": [
    "Cbadc.Circuit.C89_partial",
    "Cbadc.Circuit.C89_false"
   ],
   "note": "False: nets are named after a terminal, and equal names of terminals of different elements short their nets. Proved when every connection attaches a fresh terminal to a hub and hubs have different names."
  },
  {
   "property": "C90",
   "status": "partial",
   "theorems": [
    "Cbadc.Circuit.C90_finite_gain",
    "Cbadc.Circuit.C90_gain_false"
   ],
   "note": "False: the gain is four times the requested one (the resistors are twice as large and each sees half the current). The exact damped state equation is proved for all systems, and the division by zero for a zero input matrix."
  },
  {
   "property": "C91",
   "status": "partial",
   "theorems": [
    "Cbadc.Circuit.C91_path",
    "Cbadc.Circuit.C91_isolated_partial",
    "Cbadc.Circuit.C91_isolated_false"
   ],
   "note": "The signal path holds for all R. The outputs of all flip-flops are on the same node F_OUT_P (and F_OUT_N) as soon as there are two random controls, so all random controls are shorted together (C91_isolated_false); with one random control the nodes are isolated (C91_isolated_partial). The inside of the digital control sub-circuit Xdc is not part of this netlist."
  },
  {
   "property": "C92",
   "status": "partial",
   "theorems": [
    "Cbadc.Circuit.C92_one_pole",
    "Cbadc.Circuit.C92_static",
    "Cbadc.Circuit.C92_sinusoid",
    "Cbadc.Circuit.C92_differential_gain_false"
   ],
   "note": "Each single output has the requested gain and the unity-gain frequency GBWP. Between the two outputs the gain is 2*DC_gain, because both outputs carry the full signal (C92_differential_gain_false); a user who reads DC_gain as differential-to-differential gain gets twice that. The equivalence needs DC_gain not 0."
  },
  {
   "property": "C93",
   "status": "proved",
   "theorems": [
    "Cbadc.Circuit.C93_error",
    "Cbadc.Circuit.C93_realisable"
   ],
   "note": "Kirchhoff's law is only needed at the virtual grounds; the outputs are driven by controlled sources. An example instantiates the converse for one integrator."
  },
  {
   "property": "C94",
   "status": "proved",
   "theorems": [
    "Cbadc.Circuit.C94_shape",
    "Cbadc.Circuit.C94_observation",
    "Cbadc.Circuit.C94_drivers",
    "Cbadc.Circuit.C94_realisable"
   ],
   "note": "The clocked comparator inside is a black box with an arbitrary law; its analog-to-digital bridges and flip-flop are not modelled. The multi-phase variant, which only delays the clock of each comparator, is not covered."
  },
  {
   "property": "C95",
   "status": "partial",
   "theorems": [
    "Cbadc.Filter.C95_least_squares",
    "Cbadc.Filter.C95_batch",
    "Cbadc.Filter.C95_iir",
    "Cbadc.Filter.C95_transfer",
    "Cbadc.Filter.C95_feedthrough_false"
   ],
   "note": "Exact arithmetic, numpy backend (C96 relates the others), no excess delay and waveforms that start at the updates (false otherwise, C96_delay_false). For an analog system with direct feedthrough D the filters ignore D, so they do not realise the reported transfer functions (C95_feedthrough_false). Positive definite covariances are assumed here and proved in C98."
  },
  {
   "property": "C96",
   "status": "partial",
   "theorems": [
    "Cbadc.Filter.C96_numpy",
    "Cbadc.Filter.C96_contribution",
    "Cbadc.Filter.C96_delay_false",
    "Cbadc.Filter.C96_mpmath",
    "Cbadc.Filter.C96_mpmath_waveforms",
    "Cbadc.Filter.C96_mpmath_false",
    "Cbadc.Filter.C96_sympy_forward",
    "Cbadc.Filter.C96_sympy_waveforms",
    "Cbadc.Filter.C96_sympy_backward_partial",
    "Cbadc.Filter.C96_sympy_false"
   ],
   "note": "numpy: exact for all waveforms, but excess delay (t_delay > 0) is ignored (C96_delay_false). mpmath, the default: exact if and only if the waveform starts at the update and lasts until the next one (C96_mpmath with C96_mpmath_waveforms); delayed steps are treated as if they started at the update (C96_mpmath_false). sympy: the forward filter is exact for all delayed waveforms that do not end before the next update (C96_sympy_forward with C96_sympy_waveforms); the backward filter does not reverse time, so it is exact for constant waveforms only (C96_sympy_backward_partial, C96_sympy_false)."
  },
  {
   "property": "C97",
   "status": "partial",
   "theorems": [
    "Cbadc.Filter.C97_forward",
    "Cbadc.Filter.C97_backward_false",
    "Cbadc.Filter.C97_backends_false"
   ],
   "note": "The forward coefficients are exact. The backward coefficients use expm(tempAb Ts/2) where expm(-tempAb Ts/2) is needed and are wrong even for one integrator (C97_backward_false). The default backend ignores the option (C97_backends_false), the sympy backend raises NotImplementedError."
  },
  {
   "property": "C98",
   "status": "partial",
   "theorems": [
    "Cbadc.Filter.C98_invertible",
    "Cbadc.Filter.C98_care",
    "Cbadc.Filter.C98_filters",
    "Cbadc.Filter.C98_decay",
    "Cbadc.Filter.C98_least_squares",
    "Cbadc.Filter.C98_defective_false"
   ],
   "note": "Assumes that the Hamiltonian matrix has a basis of eigenvectors (diagonalize raises otherwise, and the exception MatrixError is not caught by care; `C98_defective_false` shows a pair of integrators for which a stabilising solution exists but no such basis) and that the eigenvalues are sorted by real part; the latter holds for _numpy_care, while sympy sorts complex eigenvalues by its own key. Exact arithmetic."
  },
  {
   "property": "C99",
   "status": "proved",
   "theorems": [
    "Cbadc.Nuv.C99_accepts",
    "Cbadc.Nuv.C99_schedule",
    "Cbadc.Nuv.C99_end",
    "Cbadc.Nuv.C99_stop",
    "Cbadc.Nuv.C99_oversample",
    "Cbadc.Nuv.C99_shape"
   ],
   "note": "All clauses, for every parameter and stream; the control iterator is a function from call index to decision or exception."
  }
 ]
}