import Verif.Props.Adaptive
import Verif.Props.AdaptiveIIR
import Verif.Props.AdaptiveLast
import Verif.Props.AdaptiveResponse
import Verif.Props.AnalogSystem
import Verif.Props.BandEdge
import Verif.Props.Bench
import Verif.Props.BenchEstimate
import Verif.Props.BenchGain
import Verif.Props.BenchLoop
import Verif.Props.Bounded
import Verif.Props.Bytes
import Verif.Props.Cards
import Verif.Props.Care
import Verif.Props.Causality
import Verif.Props.Chain
import Verif.Props.ChebyshevII
import Verif.Props.Circuit
import Verif.Props.ClosedLoop
import Verif.Props.Comparator
import Verif.Props.Connections
import Verif.Props.Coordinates
import Verif.Props.CsvText
import Verif.Props.Decimation
import Verif.Props.DigitalCircuit
import Verif.Props.DigitalControl
import Verif.Props.Disturbed
import Verif.Props.Dither
import Verif.Props.EndToEnd
import Verif.Props.EstimateRange
import Verif.Props.Estimator
import Verif.Props.EstimatorSpectrum
import Verif.Props.Existence
import Verif.Props.FIRExport
import Verif.Props.FIRFixed
import Verif.Props.FilterBackends
import Verif.Props.FilterCoefficients
import Verif.Props.FilterDesign
import Verif.Props.Filters
import Verif.Props.FixedPoint
import Verif.Props.Fom
import Verif.Props.FrontendText
import Verif.Props.FrontendTextGm
import Verif.Props.GlobalControl
import Verif.Props.GmC
import Verif.Props.Hierarchy
import Verif.Props.InputUnit
import Verif.Props.Interpolation
import Verif.Props.LC
import Verif.Props.LeapFactor
import Verif.Props.LeapFrog
import Verif.Props.Mean
import Verif.Props.MeanLeaky
import Verif.Props.Mirror
import Verif.Props.Mixture
import Verif.Props.Modulator
import Verif.Props.MultiLevelHistory
import Verif.Props.MultiPhase
import Verif.Props.NetlistText
import Verif.Props.NgSpice
import Verif.Props.Noise
import Verif.Props.NoiseBalance
import Verif.Props.Numbering
import Verif.Props.Nuv
import Verif.Props.OpAmp
import Verif.Props.OpAmpMacro
import Verif.Props.Oscillators
import Verif.Props.OvercompleteSet
import Verif.Props.Parts
import Verif.Props.PreComputed
import Verif.Props.Principle
import Verif.Props.PrintedLoop
import Verif.Props.PrintedLoopGm
import Verif.Props.Quadrature
import Verif.Props.QuadratureBound
import Verif.Props.ReferenceSource
import Verif.Props.Replace
import Verif.Props.Replay
import Verif.Props.Resonance
import Verif.Props.Reuse
import Verif.Props.Riccati
import Verif.Props.RunExists
import Verif.Props.Sampled
import Verif.Props.SigmaDelta
import Verif.Props.SignalTree
import Verif.Props.Signals
import Verif.Props.Simulator
import Verif.Props.SimulatorCases
import Verif.Props.Spectrum
import Verif.Props.SpectrumInvariance
import Verif.Props.SpectrumTriangle
import Verif.Props.Stabilising
import Verif.Props.Streams
import Verif.Props.Structures
import Verif.Props.SymbolicEquations
import Verif.Props.Synthesis
import Verif.Props.Terminals
import Verif.Props.TestBench
import Verif.Props.TestBenchTiming
import Verif.Props.Tolerance
import Verif.Props.Tone
import Verif.Props.Topology
import Verif.Props.TransferFunction
import Verif.Props.Truncation
import Verif.Props.UnitElements
import Verif.Props.Units
import Verif.Props.UnitsSynthesis
import Verif.Props.VerilogAms
import Verif.Props.WarmUp
import Verif.Props.Waveforms
import Verif.Props.Welch
import Verif.Props.WordLength
import Verif.Props.Zpk
import Verif.Props.ZpkConjugate

/-! Axioms of every theorem listed in MANIFEST.json (expected: propext, Classical.choice, Quot.sound). -/

#print axioms Cbadc.Bytes.C01_word_roundtrip
#print axioms Cbadc.Bytes.C01_stream_roundtrip
#print axioms Cbadc.Bytes.C01_binary_identity
#print axioms Cbadc.Bytes.C02_false
#print axioms Cbadc.Bytes.C02_accept_iff_partial
#print axioms Cbadc.Bytes.C02_total_partial
#print axioms Cbadc.Bytes.C03_single_file
#print axioms Cbadc.Bytes.C03_files_concat
#print axioms Cbadc.Bytes.C03_file_contents
#print axioms Cbadc.Bytes.C04_false
#print axioms Cbadc.Bytes.C04_single_file_partial
#print axioms Cbadc.Bytes.C04_files_partial
#print axioms Cbadc.Streams.C05_random_control_signal
#print axioms Cbadc.Streams.C05_show_status_passes
#print axioms Cbadc.Streams.C05_show_status_ends
#print axioms Cbadc.Streams.C06_rows
#print axioms Cbadc.Streams.C06_early_end
#print axioms Cbadc.Streams.C06_rejects
#print axioms Cbadc.C07_roundtrip_error
#print axioms Cbadc.C08_int_roundtrip
#print axioms Cbadc.C08_injective
#print axioms Cbadc.C08_monotone
#print axioms Cbadc.C08_odd
#print axioms Cbadc.C09_float_range
#print axioms Cbadc.C09_fixed_range
#print axioms Cbadc.C09_ctor
#print axioms Cbadc.C10_false
#print axioms Cbadc.C10_fits_partial
#print axioms Cbadc.Nuv.C100_smoothing_partial
#print axioms Cbadc.Nuv.C100_variance_false
#print axioms Cbadc.Nuv.C100_symmetric_false
#print axioms Cbadc.Nuv.C101_descent_partial
#print axioms Cbadc.Nuv.C101_rate_partial
#print axioms Cbadc.Nuv.C101_converges_partial
#print axioms Cbadc.Nuv.C102_chain_false
#print axioms Cbadc.Nuv.C102_handover_partial
#print axioms Cbadc.Global.C103_optimal_partial
#print axioms Cbadc.Global.C103_contribution_partial
#print axioms Cbadc.Global.C103_single
#print axioms Cbadc.Global.C103_later_false
#print axioms Cbadc.Global.C103_phase_false
#print axioms Cbadc.Global.C104_keeps_partial
#print axioms Cbadc.Global.C104_feedthrough_false
#print axioms Cbadc.Global.C105_recovers
#print axioms Cbadc.Global.C105_resonator_false
#print axioms Cbadc.UnitElements.C106_columns
#print axioms Cbadc.UnitElements.C106_accepts
#print axioms Cbadc.UnitElements.C106_greedy
#print axioms Cbadc.UnitElements.C106_order_false
#print axioms Cbadc.UnitElements.C106_empty_false
#print axioms Cbadc.Overcomplete.C107_normalised
#print axioms Cbadc.Overcomplete.C107_orthogonal
#print axioms Cbadc.Modulator.C108_rotating
#print axioms Cbadc.Modulator.C108_oscillators
#print axioms Cbadc.Modulator.C108_fewer_false
#print axioms Cbadc.Modulator.C109_neighbours_partial
#print axioms Cbadc.Modulator.C109_neighbours_false
#print axioms Cbadc.Modulator.C109_halves_false
#print axioms Cbadc.Control.C11_last_matching
#print axioms Cbadc.Control.C11_binary
#print axioms Cbadc.Control.C11_others_kept
#print axioms Cbadc.Decimation.C110_signal
#print axioms Cbadc.Decimation.C110_rows
#print axioms Cbadc.Decimation.C110_columns_false
#print axioms Cbadc.Decimation.C111_partial
#print axioms Cbadc.Decimation.C111_samples_partial
#print axioms Cbadc.Decimation.C111_refused
#print axioms Cbadc.Decimation.C111_false
#print axioms Cbadc.NgSpice.C112_partial
#print axioms Cbadc.NgSpice.C112_false
#print axioms Cbadc.NgSpice.C113_vectors
#print axioms Cbadc.TestBench.C114_supply
#print axioms Cbadc.TestBench.C114_input_partial
#print axioms Cbadc.TestBench.C114_offset_false
#print axioms Cbadc.TestBench.C114_phase_false
#print axioms Cbadc.TestBench.C114_refused
#print axioms Cbadc.TestBench.C114_solvable
#print axioms Cbadc.TestBench.C115_partial
#print axioms Cbadc.TestBench.C115_false
#print axioms Cbadc.Filters.C116_butterworth
#print axioms Cbadc.Filters.C116_rejects
#print axioms Cbadc.Filters.C117_chebyshev
#print axioms Cbadc.Filters.C117_ripple
#print axioms Cbadc.Filters.C117_rejects
#print axioms Cbadc.Filters.C118_chebyshevII_partial
#print axioms Cbadc.Filters.C118_stopband_partial
#print axioms Cbadc.Filters.C118_tie_false
#print axioms Cbadc.Circuit.C119_accepts
#print axioms Cbadc.Circuit.C119_model
#print axioms Cbadc.Circuit.C119_circuit_partial
#print axioms Cbadc.Circuit.C119_false
#print axioms Cbadc.Circuit.C119_reduced_false
#print axioms Cbadc.Control.C12_contribution
#print axioms Cbadc.Control.C12_no_delay
#print axioms Cbadc.Control.C12_decision_signal
#print axioms Cbadc.Circuit.C120_gm
#print axioms Cbadc.Circuit.C120_gains
#print axioms Cbadc.Estimator.C121_accepts
#print axioms Cbadc.Estimator.C121_estimate_partial
#print axioms Cbadc.Estimator.C121_no_overflow
#print axioms Cbadc.Estimator.C121_offset_partial
#print axioms Cbadc.Estimator.C121_offset_false
#print axioms Cbadc.Estimator.Export.C122_c_fixed
#print axioms Cbadc.Estimator.Export.C122_rust_fixed
#print axioms Cbadc.Estimator.Export.C122_c_float
#print axioms Cbadc.Estimator.Export.C122_rust_float
#print axioms Cbadc.Estimator.Export.C122_file_name
#print axioms Cbadc.Estimator.Export.C122_int_fits_partial
#print axioms Cbadc.Estimator.Export.C122_int_false
#print axioms Cbadc.Estimator.Export.C123_convolution
#print axioms Cbadc.Estimator.Export.C123_frequencies
#print axioms Cbadc.Estimator.Export.C123_response_partial
#print axioms Cbadc.Estimator.Export.C123_response_false
#print axioms Cbadc.Estimator.Export.C124_count_partial
#print axioms Cbadc.Estimator.Export.C124_count_false
#print axioms Cbadc.Hierarchy.C125_definitions
#print axioms Cbadc.Hierarchy.C126_check_partial
#print axioms Cbadc.Hierarchy.C126_fresh_partial
#print axioms Cbadc.Hierarchy.C126_ambiguous_false
#print axioms Cbadc.Hierarchy.C126_stale_false
#print axioms Cbadc.Hierarchy.C127_models
#print axioms Cbadc.Hierarchy.C127_own_partial
#print axioms Cbadc.Hierarchy.C127_digital_control
#print axioms Cbadc.Hierarchy.C127_digital_models
#print axioms Cbadc.Hierarchy.C127_dither_false
#print axioms Cbadc.Circuit.C128_decides
#print axioms Cbadc.Circuit.C128_control
#print axioms Cbadc.Circuit.C128_single_false
#print axioms Cbadc.Circuit.C129_shape
#print axioms Cbadc.Circuit.C129_observation
#print axioms Cbadc.Circuit.C129_control
#print axioms Cbadc.Circuit.C129_choice_partial
#print axioms Cbadc.Circuit.C129_dither_false
#print axioms Cbadc.Control.C13_false
#print axioms Cbadc.Control.C13_view_partial
#print axioms Cbadc.Control.C13_after_reset_partial
#print axioms Cbadc.NetlistText.C130_accepts
#print axioms Cbadc.NetlistText.C130_errors
#print axioms Cbadc.NetlistText.C130_round_trip_partial
#print axioms Cbadc.NetlistText.C130_blank_false
#print axioms Cbadc.NetlistText.C130_file_false
#print axioms Cbadc.Circuit.C131_construct
#print axioms Cbadc.Circuit.C131_file_partial
#print axioms Cbadc.Circuit.C131_stale_false
#print axioms Cbadc.Circuit.C131_random
#print axioms Cbadc.Circuit.C131_two_false
#print axioms Cbadc.Circuit.C131_nominal_partial
#print axioms Cbadc.Circuit.C131_nominal_false
#print axioms Cbadc.Estimator.C132_warm_up
#print axioms Cbadc.Estimator.C132_warm_up_samples
#print axioms Cbadc.Estimator.C132_fir_partial
#print axioms Cbadc.Estimator.C132_iir_partial
#print axioms Cbadc.Estimator.C132_batch_partial
#print axioms Cbadc.Estimator.C132_parallel_partial
#print axioms Cbadc.Estimator.C132_samples_false
#print axioms Cbadc.Estimator.C132_downsample_false
#print axioms Cbadc.Estimator.C133_turn
#print axioms Cbadc.Estimator.C133_odd
#print axioms Cbadc.Estimator.C133_nth
#print axioms Cbadc.Estimator.C133_batch
#print axioms Cbadc.Estimator.C133_fir_partial
#print axioms Cbadc.Estimator.C133_fir_false
#print axioms Cbadc.Analog.C134_peak
#print axioms Cbadc.Analog.C134_raises
#print axioms Cbadc.Analog.C134_shares_partial
#print axioms Cbadc.Analog.C134_snr_false
#print axioms Cbadc.Analog.C134_rows_false
#print axioms Cbadc.Analog.C135_shares_partial
#print axioms Cbadc.Analog.C135_band_false
#print axioms Cbadc.Analog.C135_total_false
#print axioms Cbadc.Signal.C136_band_limited_samples
#print axioms Cbadc.Signal.C136_raised_cosine_samples
#print axioms Cbadc.Signal.C136_hold
#print axioms Cbadc.Signal.C136_linear
#print axioms Cbadc.Signal.C136_interpolation_false
#print axioms Cbadc.Adaptive.C137_fit_partial
#print axioms Cbadc.Adaptive.C137_recover_partial
#print axioms Cbadc.Adaptive.C137_search
#print axioms Cbadc.Adaptive.C137_search_reject
#print axioms Cbadc.Adaptive.C137_lms_partial
#print axioms Cbadc.Adaptive.C137_rls_partial
#print axioms Cbadc.Adaptive.C137_rank_false
#print axioms Cbadc.Adaptive.C137_complex_false
#print axioms Cbadc.Adaptive.C137_negative_false
#print axioms Cbadc.Adaptive.C137_square_false
#print axioms Cbadc.Filter.C138_symmetric
#print axioms Cbadc.Filter.C138_solves_partial
#print axioms Cbadc.Filter.C138_exceptions
#print axioms Cbadc.Filter.C138_brute_false
#print axioms Cbadc.Vams.C139_summer_partial
#print axioms Cbadc.Vams.C139_lengths
#print axioms Cbadc.Vams.C139_zero_false
#print axioms Cbadc.Vams.C139_differential_ngspice
#print axioms Cbadc.Vams.C139_differential_false
#print axioms Cbadc.Vams.C139_integrator_partial
#print axioms Cbadc.Vams.C139_offset_false
#print axioms Cbadc.Vams.C139_limits_false
#print axioms Cbadc.Vams.C139_comparator_partial
#print axioms Cbadc.Vams.C139_comparator_false
#print axioms Cbadc.Control.C14_false
#print axioms Cbadc.Control.C14_multilevel_false
#print axioms Cbadc.Control.C14_reset_partial
#print axioms Cbadc.Control.C14_after_update_partial
#print axioms Cbadc.Connections.C140_check
#print axioms Cbadc.Connections.C140_upstream_partial
#print axioms Cbadc.Connections.C140_upstream_false
#print axioms Cbadc.TestBench.C141_frontend
#print axioms Cbadc.TestBench.C141_observer
#print axioms Cbadc.TestBench.C141_check
#print axioms Cbadc.TestBench.C141_sources
#print axioms Cbadc.TestBench.C141_built_partial
#print axioms Cbadc.TestBench.C141_statespace_false
#print axioms Cbadc.Filter.C142_error
#print axioms Cbadc.Filter.C142_bound
#print axioms Cbadc.Filter.C142_difference
#print axioms Cbadc.Filter.C142_decisions
#print axioms Cbadc.Filter.C142_batch
#print axioms Cbadc.EndToEnd.C143_chain
#print axioms Cbadc.EndToEnd.C143_leap_frog
#print axioms Cbadc.EndToEnd.C143_batch
#print axioms Cbadc.Filter.C144_stabilising
#print axioms Cbadc.Filter.C144_filters
#print axioms Cbadc.EndToEnd.C144_chain
#print axioms Cbadc.EndToEnd.C144_leap_frog
#print axioms Cbadc.EndToEnd.C144_converter
#print axioms Cbadc.Truncation.C145_limit
#print axioms Cbadc.Truncation.C145_estimators
#print axioms Cbadc.Truncation.C145_fir_batch
#print axioms Cbadc.Adaptive.C146_response_partial
#print axioms Cbadc.Adaptive.C146_phase_false
#print axioms Cbadc.Adaptive.C146_points_false
#print axioms Cbadc.Adaptive.C146_mismatch_false
#print axioms Cbadc.Adaptive.C146_impulse_partial
#print axioms Cbadc.Adaptive.C146_impulse_false
#print axioms Cbadc.Adaptive.C146_recursive_partial
#print axioms Cbadc.Adaptive.C146_recursive_false
#print axioms Cbadc.Filter.C147_waveforms
#print axioms Cbadc.Filter.C147_care
#print axioms Cbadc.Filter.C147_coefficients
#print axioms Cbadc.EndToEnd.C147_structures
#print axioms Cbadc.EndToEnd.C147_converter
#print axioms Cbadc.Simulate.C148_period
#print axioms Cbadc.Simulate.C148_stuck
#print axioms Cbadc.Simulate.C148_run
#print axioms Cbadc.EndToEnd.C148_structures
#print axioms Cbadc.EndToEnd.C148_converter
#print axioms Cbadc.EndToEnd.C148_leap_frog
#print axioms Cbadc.EndToEnd.C149_mean
#print axioms Cbadc.EndToEnd.C149_estimators
#print axioms Cbadc.EndToEnd.C149_chain
#print axioms Cbadc.EndToEnd.C149_leap_frog
#print axioms Cbadc.EndToEnd.C149_leaky_false
#print axioms Cbadc.Control.C15_accepts
#print axioms Cbadc.Control.C15_rejects
#print axioms Cbadc.Control.C15_reset
#print axioms Cbadc.Units.C150_simulation
#print axioms Cbadc.Units.C150_coefficients
#print axioms Cbadc.Units.C150_mid_point
#print axioms Cbadc.Units.C150_same
#print axioms Cbadc.Units.C150_structures
#print axioms Cbadc.Units.C150_chain_synthesis
#print axioms Cbadc.Units.C150_leap_synthesis
#print axioms Cbadc.Units.C150_transition
#print axioms Cbadc.Units.C150_converter
#print axioms Cbadc.Coordinates.C151_maps
#print axioms Cbadc.Coordinates.C151_simulation
#print axioms Cbadc.Coordinates.C151_care
#print axioms Cbadc.Coordinates.C151_coefficients
#print axioms Cbadc.Coordinates.C151_same
#print axioms Cbadc.Coordinates.C151_estimates
#print axioms Cbadc.Coordinates.C151_responses
#print axioms Cbadc.Coordinates.C151_eta2
#print axioms Cbadc.Coordinates.C151_converter
#print axioms Cbadc.InputUnit.C152_simulation
#print axioms Cbadc.InputUnit.C152_care
#print axioms Cbadc.InputUnit.C152_coefficients
#print axioms Cbadc.InputUnit.C152_same
#print axioms Cbadc.InputUnit.C152_estimates
#print axioms Cbadc.InputUnit.C152_eta2
#print axioms Cbadc.InputUnit.C152_converter
#print axioms Cbadc.Simulate.C153_causal
#print axioms Cbadc.Simulate.C153_strict
#print axioms Cbadc.Simulate.C153_shift
#print axioms Cbadc.Simulate.C153_estimates
#print axioms Cbadc.Simulate.C154_accepts
#print axioms Cbadc.Simulate.C154_none
#print axioms Cbadc.Simulate.C154_added
#print axioms Cbadc.Simulate.C154_run
#print axioms Cbadc.Simulate.C154_covariance_partial
#print axioms Cbadc.Simulate.C154_covariance_false
#print axioms Cbadc.Simulate.C154_singular_false
#print axioms Cbadc.Simulate.C154_density
#print axioms Cbadc.Simulate.C154_same_partial
#print axioms Cbadc.Simulate.C154_bounded
#print axioms Cbadc.Circuit.C155_assign
#print axioms Cbadc.Circuit.C155_attr
#print axioms Cbadc.Circuit.C155_error
#print axioms Cbadc.Circuit.C155_replace
#print axioms Cbadc.Circuit.C155_netlist_partial
#print axioms Cbadc.Circuit.C155_names_false
#print axioms Cbadc.Circuit.C155_passive_false
#print axioms Cbadc.Numbering.C156_simulation
#print axioms Cbadc.Numbering.C156_control
#print axioms Cbadc.Numbering.C156_care
#print axioms Cbadc.Numbering.C156_coefficients
#print axioms Cbadc.Numbering.C156_same
#print axioms Cbadc.Numbering.C156_estimates
#print axioms Cbadc.Numbering.C156_responses
#print axioms Cbadc.Numbering.C156_converter
#print axioms Cbadc.Cards.C157_accepts
#print axioms Cbadc.Cards.C157_errors
#print axioms Cbadc.Cards.C157_card_partial
#print axioms Cbadc.Cards.C157_definition_partial
#print axioms Cbadc.Cards.C157_model
#print axioms Cbadc.Cards.C157_names_partial
#print axioms Cbadc.Cards.C157_names_false
#print axioms Cbadc.Cards.C157_parameters_false
#print axioms Cbadc.Cards.C157_comment_false
#print axioms Cbadc.Cards.C157_spectre_false
#print axioms Cbadc.Estimator.C158_fir
#print axioms Cbadc.Estimator.C158_iir
#print axioms Cbadc.Estimator.C158_batch
#print axioms Cbadc.Estimator.C158_parallel
#print axioms Cbadc.Estimator.C158_unset
#print axioms Cbadc.Estimator.C158_fir_settles_partial
#print axioms Cbadc.Estimator.C158_iir_memory_partial
#print axioms Cbadc.Estimator.C158_iir_fades_partial
#print axioms Cbadc.Estimator.C158_batch_ended_partial
#print axioms Cbadc.Estimator.C158_batch_false
#print axioms Cbadc.Estimator.C158_limit_false
#print axioms Cbadc.Estimator.C158_exhausted_false
#print axioms Cbadc.Estimator.C158_iir_exhausted_false
#print axioms Cbadc.Analog.C159_sinusoid
#print axioms Cbadc.Analog.C159_regular
#print axioms Cbadc.Analog.C159_least_partial
#print axioms Cbadc.Analog.C159_symbolic
#print axioms Cbadc.Analog.C159_agree
#print axioms Cbadc.Analog.C159_symbolic_none
#print axioms Cbadc.Analog.C159_symbolic_limit
#print axioms Cbadc.Analog.C159_general
#print axioms Cbadc.Analog.C159_general_input
#print axioms Cbadc.Analog.C159_dc_false
#print axioms Cbadc.Analog.C159_cancelled_false
#print axioms Cbadc.Simulate.C16_phase_zero_partial
#print axioms Cbadc.Simulate.C16_other_phase_frozen
#print axioms Cbadc.Simulate.C16_false
#print axioms Cbadc.NgSpice.C160_saved
#print axioms Cbadc.NgSpice.C160_inputs
#print axioms Cbadc.NgSpice.C160_highlighted
#print axioms Cbadc.NgSpice.C160_states
#print axioms Cbadc.NgSpice.C160_headers
#print axioms Cbadc.NgSpice.C160_control
#print axioms Cbadc.NgSpice.C160_state_equation
#print axioms Cbadc.NgSpice.C160_refused
#print axioms Cbadc.Filters.C161_lowpass
#print axioms Cbadc.Filters.C161_highpass
#print axioms Cbadc.Filters.C161_bandpass_partial
#print axioms Cbadc.Filters.C161_transform_partial
#print axioms Cbadc.Filters.C161_cauer_partial
#print axioms Cbadc.Filters.C161_rejects
#print axioms Cbadc.Filters.C161_bandstop_false
#print axioms Cbadc.Filters.C161_bessel_false
#print axioms Cbadc.Analog.C162_input
#print axioms Cbadc.Analog.C162_control
#print axioms Cbadc.Analog.C162_numbers
#print axioms Cbadc.Analog.C162_superposition
#print axioms Cbadc.Analog.C162_functions_false
#print axioms Cbadc.Mirror.C163_simulation
#print axioms Cbadc.Mirror.C163_estimates
#print axioms Cbadc.Mirror.C163_converter
#print axioms Cbadc.Mirror.C163_tie_false
#print axioms Cbadc.Parts.C164_simulation
#print axioms Cbadc.Parts.C164_solvable
#print axioms Cbadc.Parts.C164_coefficients
#print axioms Cbadc.Parts.C164_estimates
#print axioms Cbadc.Parts.C164_converter
#print axioms Cbadc.Parts.C164_direct_false
#print axioms Cbadc.Replay.C165_file
#print axioms Cbadc.Replay.C165_files
#print axioms Cbadc.Replay.C165_url
#print axioms Cbadc.Replay.C165_reads
#print axioms Cbadc.Replay.C165_fir
#print axioms Cbadc.Replay.C165_iir
#print axioms Cbadc.Replay.C165_batch_file
#print axioms Cbadc.Replay.C165_batch_generator
#print axioms Cbadc.Replay.C165_parallel
#print axioms Cbadc.Replay.C165_converter
#print axioms Cbadc.Replay.C165_files_false
#print axioms Cbadc.Replay.C165_end_false
#print axioms Cbadc.FrontendText.C166_opamp_text
#print axioms Cbadc.FrontendText.C166_exact
#print axioms Cbadc.NgSpice.C167_samples_partial
#print axioms Cbadc.NgSpice.C167_state_false
#print axioms Cbadc.NgSpice.C167_table_false
#print axioms Cbadc.FrontendText.C168_gmc_text
#print axioms Cbadc.FrontendText.C168_division
#print axioms Cbadc.FrontendText.C168_exact
#print axioms Cbadc.Estimator.C169_range
#print axioms Cbadc.Estimator.C169_attained
#print axioms Cbadc.Estimator.C169_bit_error
#print axioms Cbadc.Estimator.C169_fixed
#print axioms Cbadc.Control.C17_value
#print axioms Cbadc.Control.C17_range
#print axioms Cbadc.Control.C17_monotone
#print axioms Cbadc.Control.C17_thresholds
#print axioms Cbadc.Control.C17_half_step
#print axioms Cbadc.Control.C17_one_level
#print axioms Cbadc.Control.C17_decision
#print axioms Cbadc.Control.C17_history
#print axioms Cbadc.ClosedLoop.C170_follows_partial
#print axioms Cbadc.ClosedLoop.C170_gmc_partial
#print axioms Cbadc.ClosedLoop.C170_limit_partial
#print axioms Cbadc.ClosedLoop.C170_observation_false
#print axioms Cbadc.ClosedLoop.C171_opamp_partial
#print axioms Cbadc.ClosedLoop.C171_gmc_partial
#print axioms Cbadc.ClosedLoop.C171_signals_false
#print axioms Cbadc.ClosedLoop.C172_opamp_partial
#print axioms Cbadc.ClosedLoop.C172_gmc_partial
#print axioms Cbadc.ClosedLoop.C172_first_false
#print axioms Cbadc.ClosedLoop.C173_gmc_partial
#print axioms Cbadc.ClosedLoop.C173_leakage_false
#print axioms Cbadc.ClosedLoop.C174_tolerance_partial
#print axioms Cbadc.ClosedLoop.C174_limit_partial
#print axioms Cbadc.ClosedLoop.C174_estimates
#print axioms Cbadc.ClosedLoop.C174_tie_false
#print axioms Cbadc.ClosedLoop.C175_opamp_text_partial
#print axioms Cbadc.ClosedLoop.C175_gmc_text_partial
#print axioms Cbadc.CsvText.C176_row
#print axioms Cbadc.CsvText.C176_table
#print axioms Cbadc.CsvText.C176_wrong_length
#print axioms Cbadc.CsvText.C176_source
#print axioms Cbadc.CsvText.C176_fir
#print axioms Cbadc.CsvText.C176_iir
#print axioms Cbadc.CsvText.C176_batch
#print axioms Cbadc.CsvText.C176_converter
#print axioms Cbadc.CsvText.C176_voltages_false
#print axioms Cbadc.CsvText.C176_observer_false
#print axioms Cbadc.CsvText.C176_range_false
#print axioms Cbadc.Synthesis.C177_factor
#print axioms Cbadc.Synthesis.C177_in_band
#print axioms Cbadc.Synthesis.C177_clock
#print axioms Cbadc.Synthesis.C178_chain
#print axioms Cbadc.Synthesis.C178_leap_frog
#print axioms Cbadc.Spectrum.C179_total
#print axioms Cbadc.Spectrum.C179_affine
#print axioms Cbadc.Spectrum.C179_rms_partial
#print axioms Cbadc.Spectrum.C179_rms_false
#print axioms Cbadc.Spectrum.C179_ratio
#print axioms Cbadc.Spectrum.C179_ratio_false
#print axioms Cbadc.Control.C18_false
#print axioms Cbadc.Control.C18_offsets_ignored
#print axioms Cbadc.Control.C18_length_partial
#print axioms Cbadc.Spectrum.C180_tone
#print axioms Cbadc.Spectrum.C180_found
#print axioms Cbadc.Spectrum.C180_snr
#print axioms Cbadc.Spectrum.C180_width_false
#print axioms Cbadc.Spectrum.C181_mixture
#print axioms Cbadc.Spectrum.C181_found
#print axioms Cbadc.Spectrum.C181_power
#print axioms Cbadc.Spectrum.C181_distortion
#print axioms Cbadc.Spectrum.C182_peaks
#print axioms Cbadc.Spectrum.C182_ratios
#print axioms Cbadc.Spectrum.C182_rms
#print axioms Cbadc.Spectrum.C182_tail
#print axioms Cbadc.Spectrum.C183_found
#print axioms Cbadc.Spectrum.C183_clear
#print axioms Cbadc.Spectrum.C183_snr
#print axioms Cbadc.Spectrum.C184_triangle
#print axioms Cbadc.Spectrum.C184_close
#print axioms Cbadc.Spectrum.C184_tone
#print axioms Cbadc.Spectrum.C184_snr
#print axioms Cbadc.Estimator.C185_word_length
#print axioms Cbadc.Estimator.C186_spectra
#print axioms Cbadc.Control.C19_signal
#print axioms Cbadc.Control.C19_rows_in_order
#print axioms Cbadc.Control.C19_ctor
#print axioms Cbadc.Simulate.C20_bounded
#print axioms Cbadc.Analog.C21_accepted_consistent
#print axioms Cbadc.Analog.C21_consistent_accepted
#print axioms Cbadc.Analog.C21_entries
#print axioms Cbadc.Analog.C21_derivative_partial
#print axioms Cbadc.Analog.C21_derivative_false
#print axioms Cbadc.Analog.C21_signal_observation
#print axioms Cbadc.Analog.C22_accepts
#print axioms Cbadc.Analog.C22_false
#print axioms Cbadc.Analog.C22_chain_partial
#print axioms Cbadc.Analog.C22_transfer_function_partial
#print axioms Cbadc.Analog.C23_accepts
#print axioms Cbadc.Analog.C23_trajectory
#print axioms Cbadc.Analog.C23_signal_observation
#print axioms Cbadc.Analog.C23_transfers
#print axioms Cbadc.Analog.C23_transfer_function
#print axioms Cbadc.Analog.C23_control_observation_partial
#print axioms Cbadc.Analog.C23_control_observation_false
#print axioms Cbadc.Analog.C24_tf2abcd
#print axioms Cbadc.Analog.C25_sos2abcd
#print axioms Cbadc.Analog.C26_zpk2abcd_partial
#print axioms Cbadc.Analog.C26_conjugate_partial
#print axioms Cbadc.Analog.C26_real_zeros_partial
#print axioms Cbadc.Analog.C26_negative_gain_false
#print axioms Cbadc.Analog.C26_repeated_pole_false
#print axioms Cbadc.Analog.C27_false
#print axioms Cbadc.Analog.C27_observation_partial
#print axioms Cbadc.Simulate.C28_solution_partial
#print axioms Cbadc.Simulate.C28_deterministic
#print axioms Cbadc.Simulate.C28_no_input_false
#print axioms Cbadc.Simulate.C29_exact_partial
#print axioms Cbadc.Simulate.C29_run_partial
#print axioms Cbadc.Simulate.C29_refused
#print axioms Cbadc.Simulate.C29_piecewise_false
#print axioms Cbadc.Simulate.C29_output_false
#print axioms Cbadc.Simulate.C29_resonance_false
#print axioms Cbadc.Simulate.C30_items
#print axioms Cbadc.Estimator.C31_fir_estimate
#print axioms Cbadc.Estimator.C31_fir_accepts
#print axioms Cbadc.Estimator.C31_fir_downsample_too_large
#print axioms Cbadc.Estimator.C32_batch_estimate
#print axioms Cbadc.Estimator.C32_batch_accepts
#print axioms Cbadc.Estimator.C33_iir_estimate
#print axioms Cbadc.Estimator.C33_iir_zero_lookahead
#print axioms Cbadc.Estimator.C33_iir_accepts
#print axioms Cbadc.Estimator.C34_parallel_eq_batch
#print axioms Cbadc.Estimator.C34_same_acceptance
#print axioms Cbadc.Estimator.C35_fir_iir
#print axioms Cbadc.Estimator.C35_fir_eq_iir
#print axioms Cbadc.Estimator.C35_iir_eq_batch
#print axioms Cbadc.Estimator.C36_false
#print axioms Cbadc.Estimator.C36_fir_count_partial
#print axioms Cbadc.Estimator.C36_iir_count_partial
#print axioms Cbadc.Estimator.C36_batch_count_partial
#print axioms Cbadc.Estimator.C37_downsample_is_decimation
#print axioms Cbadc.Estimator.C38_batch_false
#print axioms Cbadc.Estimator.C38_fir_no_invention_partial
#print axioms Cbadc.Estimator.C38_fir_end_partial
#print axioms Cbadc.Estimator.C38_iir_no_invention_partial
#print axioms Cbadc.Estimator.C38_iir_end_partial
#print axioms Cbadc.Estimator.C38_batch_end_partial
#print axioms Cbadc.Estimator.C39_window
#print axioms Cbadc.Estimator.C39_affine
#print axioms Cbadc.Estimator.C39_offset
#print axioms Cbadc.Estimator.C40_false
#print axioms Cbadc.Estimator.C40_convolve_cascade_partial
#print axioms Cbadc.Estimator.C40_convolve_accepts
#print axioms Cbadc.Analog.C41_spec
#print axioms Cbadc.Analog.C41_bounds
#print axioms Cbadc.Analog.C41_single_input
#print axioms Cbadc.Analog.C41_monotone
#print axioms Cbadc.Analog.C41_half
#print axioms Cbadc.Analog.C41_band_edge
#print axioms Cbadc.Analog.C41_noise_bound
#print axioms Cbadc.Adaptive.C42_rls_partial
#print axioms Cbadc.Adaptive.C42_references_false
#print axioms Cbadc.Adaptive.C43_gradient_partial
#print axioms Cbadc.Adaptive.C43_descent_partial
#print axioms Cbadc.Adaptive.C43_references_false
#print axioms Cbadc.Adaptive.C43_offset_false
#print axioms Cbadc.Adaptive.C44_windows_partial
#print axioms Cbadc.Adaptive.C44_predict_partial
#print axioms Cbadc.Adaptive.C44_square_false
#print axioms Cbadc.Adaptive.C44_last_window_false
#print axioms Cbadc.Spectrum.C45_range
#print axioms Cbadc.Spectrum.C45_windows
#print axioms Cbadc.Spectrum.C45_peak
#print axioms Cbadc.Spectrum.C45_separated
#print axioms Cbadc.Spectrum.C45_single
#print axioms Cbadc.Spectrum.C45_empty
#print axioms Cbadc.Fom.C46_enob_inverse
#print axioms Cbadc.Fom.C46_dB_inverse
#print axioms Cbadc.Fom.C46_ideal_quantiser
#print axioms Cbadc.Fom.C46_documented
#print axioms Cbadc.Fom.C47_walden
#print axioms Cbadc.Fom.C47_schreier
#print axioms Cbadc.Fom.C47_osr
#print axioms Cbadc.Synthesis.C48_osr
#print axioms Cbadc.Synthesis.C48_period
#print axioms Cbadc.Synthesis.C48_bounded
#print axioms Cbadc.Synthesis.C48_unsupported
#print axioms Cbadc.Synthesis.C49_false
#print axioms Cbadc.Synthesis.C49_switch_cap_partial
#print axioms Cbadc.SigmaDelta.C50_iff_partial
#print axioms Cbadc.SigmaDelta.C50_local_partial
#print axioms Cbadc.SigmaDelta.C50_refused
#print axioms Cbadc.SigmaDelta.C50_order_false
#print axioms Cbadc.SigmaDelta.C50_diagonal_false
#print axioms Cbadc.Circuit.C51_partial
#print axioms Cbadc.Circuit.C51_false
#print axioms Cbadc.Circuit.C52_state_equation
#print axioms Cbadc.Circuit.C52_realisable
#print axioms Cbadc.Circuit.C53_state_equation
#print axioms Cbadc.Circuit.C53_realisable
#print axioms Cbadc.Circuit.C54_partial
#print axioms Cbadc.Circuit.C54_false
#print axioms Cbadc.Circuit.C54_positions
#print axioms Cbadc.Circuit.C54_index
#print axioms Cbadc.Circuit.C54_terminals
#print axioms Cbadc.Signal.C55_periodic
#print axioms Cbadc.Signal.C55_waveform
#print axioms Cbadc.Signal.C55_bounded_partial
#print axioms Cbadc.Signal.C55_swing_false
#print axioms Cbadc.Signal.C55_full_duty_false
#print axioms Cbadc.Signal.C55_next_tick_partial
#print axioms Cbadc.Signal.C55_next_tick_bounds
#print axioms Cbadc.Signal.C55_next_tick_false
#print axioms Cbadc.Signal.C56_finite_alphabet
#print axioms Cbadc.Signal.C56_reference_values
#print axioms Cbadc.Signal.C56_finite_held
#print axioms Cbadc.Signal.C56_finite_sequence
#print axioms Cbadc.Signal.C56_uniform_interval
#print axioms Cbadc.Signal.C56_uniform_partial
#print axioms Cbadc.Signal.C56_uniform_false
#print axioms Cbadc.Signal.C56_tick
#print axioms Cbadc.Signal.C57_energy_partial
#print axioms Cbadc.Signal.C57_modulator
#print axioms Cbadc.Signal.C57_random_false
#print axioms Cbadc.Signal.C58_sum_partial
#print axioms Cbadc.Signal.C58_product_partial
#print axioms Cbadc.Signal.C58_function_of_time
#print axioms Cbadc.Signal.C58_held_false
#print axioms Cbadc.Control.C59_dither_delay_false
#print axioms Cbadc.Control.C59_dither_contribution_partial
#print axioms Cbadc.Analog.C60_chain
#print axioms Cbadc.Analog.C60_size_mismatch_false
#print axioms Cbadc.Analog.C61_leap_frog
#print axioms Cbadc.Simulate.C62_leap_frog_bounded
#print axioms Cbadc.Fom.C63_contours
#print axioms Cbadc.Fom.C63_selection
#print axioms Cbadc.Fom.C63_envelopes
#print axioms Cbadc.Adaptive.C64_lms_partial
#print axioms Cbadc.Adaptive.C64_one_window_false
#print axioms Cbadc.Adaptive.C64_last_window_false
#print axioms Cbadc.Adaptive.C64_reject
#print axioms Cbadc.Adaptive.C65_real_partial
#print axioms Cbadc.Adaptive.C65_complex_false
#print axioms Cbadc.Adaptive.C66_trained_partial
#print axioms Cbadc.Adaptive.C66_after_lstsq_false
#print axioms Cbadc.Adaptive.C67_iir_partial
#print axioms Cbadc.Adaptive.C67_references_false
#print axioms Cbadc.Signal.C68_delay_partial
#print axioms Cbadc.Signal.C68_duty_cycle_false
#print axioms Cbadc.Signal.C69_ramp_partial
#print axioms Cbadc.Signal.C69_amplitude_false
#print axioms Cbadc.Signal.C69_sinusoidal
#print axioms Cbadc.Signal.C69_sinc
#print axioms Cbadc.Signal.C70_hold_partial
#print axioms Cbadc.Signal.C70_negative_time_false
#print axioms Cbadc.Signal.C71_combined
#print axioms Cbadc.Signal.C71_finite_partial
#print axioms Cbadc.Signal.C71_rc_false
#print axioms Cbadc.Signal.C71_gaussian_false
#print axioms Cbadc.Signal.C72_forms_partial
#print axioms Cbadc.Signal.C72_before_start_false
#print axioms Cbadc.Signal.C72_pulse_false
#print axioms Cbadc.Signal.C72_sinc_false
#print axioms Cbadc.Signal.C73_repeat_partial
#print axioms Cbadc.Signal.C73_history_false
#print axioms Cbadc.Signal.C73_uniform_false
#print axioms Cbadc.Signal.C74_default_partial
#print axioms Cbadc.Signal.C74_phase_offset_false
#print axioms Cbadc.Analog.C75_matrix_false
#print axioms Cbadc.Analog.C75_shape_false
#print axioms Cbadc.Analog.C75_partial
#print axioms Cbadc.Analog.C76_false
#print axioms Cbadc.Analog.C76_partial
#print axioms Cbadc.Spectrum.C77_power
#print axioms Cbadc.Spectrum.C77_consistent
#print axioms Cbadc.Spectrum.C77_scale
#print axioms Cbadc.Spectrum.C77_no_noise
#print axioms Cbadc.Spectrum.C77_default_false
#print axioms Cbadc.Spectrum.C78_reader
#print axioms Cbadc.Spectrum.C78_round_trip
#print axioms Cbadc.Analog.C79_trajectory
#print axioms Cbadc.Analog.C79_output
#print axioms Cbadc.Analog.C79_control_observation_partial
#print axioms Cbadc.Analog.C79_control_observation_false
#print axioms Cbadc.Synthesis.C80_design
#print axioms Cbadc.Synthesis.C80_snr
#print axioms Cbadc.Synthesis.C80_faster
#print axioms Cbadc.Synthesis.C80_in_band
#print axioms Cbadc.Synthesis.C81_osr
#print axioms Cbadc.Synthesis.C81_enob
#print axioms Cbadc.Synthesis.C81_period
#print axioms Cbadc.Synthesis.C81_resonances
#print axioms Cbadc.Synthesis.C81_in_band
#print axioms Cbadc.Synthesis.C82_false
#print axioms Cbadc.Synthesis.C82_partial
#print axioms Cbadc.SigmaDelta.C83_partial
#print axioms Cbadc.SigmaDelta.C83_inactive_false
#print axioms Cbadc.Synthesis.C84_demodulated
#print axioms Cbadc.Synthesis.C84_observations_partial
#print axioms Cbadc.Synthesis.C84_transfer_partial
#print axioms Cbadc.Synthesis.C84_scalar
#print axioms Cbadc.Synthesis.C84_dropped_false
#print axioms Cbadc.Synthesis.C85_period
#print axioms Cbadc.Synthesis.C85_delay
#print axioms Cbadc.Synthesis.C85_rejected
#print axioms Cbadc.Synthesis.C85_delay_false
#print axioms Cbadc.Synthesis.C86_bounded
#print axioms Cbadc.Synthesis.C86_every_start
#print axioms Cbadc.Synthesis.C86_leap_frog
#print axioms Cbadc.Synthesis.C87_osr_partial
#print axioms Cbadc.Synthesis.C87_simulation_false
#print axioms Cbadc.Synthesis.C87_enob_false
#print axioms Cbadc.Synthesis.C88_partial
#print axioms Cbadc.Synthesis.C88_lossless
#print axioms Cbadc.Synthesis.C88_width_false
#print axioms Cbadc.Synthesis.C88_wide_partial
#print axioms Cbadc.Synthesis.C88_constant_partial
#print axioms Cbadc.Synthesis.C88_lossy_false
#print axioms Cbadc.Circuit.C89_partial
#print axioms Cbadc.Circuit.C89_false
#print axioms Cbadc.Circuit.C90_finite_gain
#print axioms Cbadc.Circuit.C90_gain_false
#print axioms Cbadc.Circuit.C91_path
#print axioms Cbadc.Circuit.C91_isolated_partial
#print axioms Cbadc.Circuit.C91_isolated_false
#print axioms Cbadc.Circuit.C92_one_pole
#print axioms Cbadc.Circuit.C92_static
#print axioms Cbadc.Circuit.C92_sinusoid
#print axioms Cbadc.Circuit.C92_differential_gain_false
#print axioms Cbadc.Circuit.C93_error
#print axioms Cbadc.Circuit.C93_realisable
#print axioms Cbadc.Circuit.C94_shape
#print axioms Cbadc.Circuit.C94_observation
#print axioms Cbadc.Circuit.C94_drivers
#print axioms Cbadc.Circuit.C94_realisable
#print axioms Cbadc.Filter.C95_least_squares
#print axioms Cbadc.Filter.C95_batch
#print axioms Cbadc.Filter.C95_iir
#print axioms Cbadc.Filter.C95_transfer
#print axioms Cbadc.Filter.C95_feedthrough_false
#print axioms Cbadc.Filter.C96_numpy
#print axioms Cbadc.Filter.C96_contribution
#print axioms Cbadc.Filter.C96_delay_false
#print axioms Cbadc.Filter.C96_mpmath
#print axioms Cbadc.Filter.C96_mpmath_waveforms
#print axioms Cbadc.Filter.C96_mpmath_false
#print axioms Cbadc.Filter.C96_sympy_forward
#print axioms Cbadc.Filter.C96_sympy_waveforms
#print axioms Cbadc.Filter.C96_sympy_backward_partial
#print axioms Cbadc.Filter.C96_sympy_false
#print axioms Cbadc.Filter.C97_forward
#print axioms Cbadc.Filter.C97_backward_false
#print axioms Cbadc.Filter.C97_backends_false
#print axioms Cbadc.Filter.C98_invertible
#print axioms Cbadc.Filter.C98_care
#print axioms Cbadc.Filter.C98_filters
#print axioms Cbadc.Filter.C98_decay
#print axioms Cbadc.Filter.C98_least_squares
#print axioms Cbadc.Filter.C98_defective_false
#print axioms Cbadc.Nuv.C99_accepts
#print axioms Cbadc.Nuv.C99_schedule
#print axioms Cbadc.Nuv.C99_end
#print axioms Cbadc.Nuv.C99_stop
#print axioms Cbadc.Nuv.C99_oversample
#print axioms Cbadc.Nuv.C99_shape
