{"id": "C01", "title": "Byte-stream encoding of control signals round-trips", "statement": "Whenever control_signal_2_byte_stream emits a word for a control vector, byte_stream_2_control_signal decodes that word to the 0/1 vector whose m-th entry is 1 exactly when the m-th entry of the original was positive; in particular a 0/1 control vector comes back unchanged, sample by sample, for a stream of any length.", "quantifier": "every number of controls M from 1 to 128 and every control vector the encoder accepts; every finite stream of them", "why_tests_cant": "There are 2^M vectors per width and four word formats; tests can only sample a few and miss the sign/width boundaries of struct.pack.", "anchors": ["src/cbadc/utilities.py: control_signal_2_byte_stream, byte_stream_2_control_signal, number_of_bytes_selector"]}
{"id": "C02", "title": "Every supported control signal can be stored", "statement": "For each M the width selector accepts (M <= 128), control_signal_2_byte_stream stores every 0/1 control vector of length M without raising.", "quantifier": "every M in 1..128 and every 0/1 vector of length M", "why_tests_cant": "The failing vectors are those whose top bits are set for particular M; a random test at M=5 or M=20 never sees them.", "anchors": ["src/cbadc/utilities.py: control_signal_2_byte_stream, number_of_bytes_selector"]}
{"id": "C03", "title": "Files written by write_byte_stream_to_file(s) contain exactly the encoded stream", "statement": "Concatenating the files written by write_byte_stream_to_files in creation order gives exactly the concatenation of the words supplied by the iterator; each file but the last holds exactly words_per_file words and none holds more; write_byte_stream_to_file writes all words in order.", "quantifier": "every finite stream of words and every words_per_file >= 1", "why_tests_cant": "Off-by-one losses at a chunk boundary depend on the relation between stream length and chunk size, for all of which a test cannot range.", "anchors": ["src/cbadc/utilities.py: write_byte_stream_to_file, write_byte_stream_to_files"]}
{"id": "C04", "title": "Reading a stored byte stream back gives the stored stream", "statement": "Decoding read_byte_stream_from_file over the files written from an encoded control-signal stream yields exactly the original control signals, in order, and then ends.", "quantifier": "every finite control-signal stream, every M, every split over files", "why_tests_cant": "The end-of-file behaviour composes three generators; a test which takes only the first n samples never exercises what happens at a file end.", "anchors": ["src/cbadc/utilities.py: read_byte_stream_from_file, byte_stream_2_control_signal, write_byte_stream_to_files"]}
{"id": "C05", "title": "Stream generators deliver exactly the promised samples and then end by an error the estimators understand", "statement": "random_control_signal(M,n,...) delivers exactly n vectors of M entries in {0,1}; show_status(it,n) passes on exactly the first n items of it unchanged, and every one of these generators afterwards ends by RuntimeError (never by a value), which each estimator turns into StopIteration.", "quantifier": "every requested length, every underlying iterator and every number of next() calls", "why_tests_cant": "A schedule property over all call sequences; tests only exercise particular lengths.", "anchors": ["src/cbadc/utilities.py: random_control_signal, show_status", "src/cbadc/digital_estimator/fir_estimator.py: FIRFilter.__next__", "src/cbadc/digital_estimator/iir_estimator.py: IIRFilter.__next__"]}
{"id": "C06", "title": "Iterators are copied faithfully into arrays", "statement": "iterator_to_numpy_array(it,size,L) returns, when it returns, an array whose k-th row is the k-th item of the iterator for all k < size, and it consumes exactly `size` items; it fails rather than return a short array when the iterator ends early, and it rejects size < 1 or L < 1.", "quantifier": "every iterator, size and L", "why_tests_cant": "Quantifies over all iterators including those that end at any position.", "anchors": ["src/cbadc/utilities.py: iterator_to_numpy_array"]}
{"id": "C07", "title": "Fixed-point conversion error is below one quantisation step", "statement": "For every value a FixedPoint accepts, converting to an integer and back gives a value of no larger magnitude, of no opposite sign, and within strictly less than one step (1/scale) of the original.", "quantifier": "every word length >= 1 bit, every positive maximum value and every accepted value", "why_tests_cant": "Real-valued inputs: the worst case lies at arbitrary points between the quantisation levels.", "anchors": ["src/cbadc/utilities.py: FixedPoint.float_to_fixed, FixedPoint.fixed_to_float"]}
{"id": "C08", "title": "Fixed-point integers survive the trip through floating point", "statement": "float_to_fixed(fixed_to_float(n)) = n for every integer n that fixed_to_float accepts, fixed_to_float is injective and odd, float_to_fixed is odd and monotone.", "quantifier": "every word length, every positive maximum, every accepted integer / pair of values", "why_tests_cant": "2^bits integers for every configuration.", "anchors": ["src/cbadc/utilities.py: FixedPoint.float_to_fixed, FixedPoint.fixed_to_float"]}
{"id": "C09", "title": "Fixed-point conversions raise exactly on out-of-range values", "statement": "float_to_fixed raises iff |v| > max and otherwise returns an integer of magnitude at most 2^(bits-1); fixed_to_float raises iff |n| > 2^(bits-1) and otherwise returns a value of magnitude at most max; hence the output of one is always accepted by the other.", "quantifier": "every word length, every positive maximum, every value and integer", "why_tests_cant": "The boundary sits at exactly |v| = max for every configuration.", "anchors": ["src/cbadc/utilities.py: FixedPoint.float_to_fixed, FixedPoint.fixed_to_float"]}
{"id": "C10", "title": "Fixed-point numbers fit the declared signed word length", "statement": "Every integer produced by float_to_fixed of a FixedPoint with b bits fits a signed b-bit two's complement word.", "quantifier": "every word length and accepted value", "why_tests_cant": "The single failing value per configuration is the maximum itself.", "anchors": ["src/cbadc/utilities.py: FixedPoint.__init__, FixedPoint.float_to_fixed"]}
{"id": "C11", "title": "Control decisions follow the sign of the observation at the clock phase and nothing else changes", "statement": "After any sequence of DigitalControl.control_update calls the control signal is a 0/1 vector; each control's value is the comparison (observation >= offset) made at the last update whose time matched that control's phase, or its initial value if there was none; controls whose phase does not match an update keep their value.", "quantifier": "every number of controls, phase assignment, offset vector and every sequence of update times and observations", "why_tests_cant": "Quantifies over histories; a unit test checks one update.", "anchors": ["src/cbadc/digital_control/digital_control.py: DigitalControl.control_update, control_signal"]}
{"id": "C12", "title": "Excess control-loop delay applies the previous decision before t_delay and the current one from then on", "statement": "control_contribution(t) uses the decisions valid before the most recent update for t < t_delay and those of the most recent update for t >= t_delay; with t_delay = 0 only the latest decisions are ever applied; each component is decision x impulse response at its own phase.", "quantifier": "every history of updates, every delay >= 0 and evaluation time in the period", "why_tests_cant": "Needs every update history and every real evaluation time.", "anchors": ["src/cbadc/digital_control/digital_control.py: DigitalControl.control_update, control_contribution"]}
{"id": "C13", "title": "Control vectors handed out stay what they were", "statement": "A control vector obtained from control_signal() keeps its contents when the simulation continues, so a list of collected control vectors is the history of decisions.", "quantifier": "every number of controls and every later sequence of updates", "why_tests_cant": "Aliasing only shows when the consumer stores earlier outputs while updates continue; tests that immediately copy never see it.", "anchors": ["src/cbadc/digital_control/digital_control.py: DigitalControl.control_signal", "src/cbadc/simulator/utilities.py: extended_simulation_result"]}
{"id": "C14", "title": "reset() makes a digital control indistinguishable from a new one", "statement": "After reset() a DigitalControl behaves, for every later sequence of calls, as one newly constructed with the same parameters.", "quantifier": "every history before reset and every sequence of calls after it", "why_tests_cant": "Two histories must be compared for all continuations.", "anchors": ["src/cbadc/digital_control/digital_control.py: DigitalControl.reset, __init__"]}
{"id": "C15", "title": "Constructing a digital control succeeds exactly for valid phases", "statement": "DigitalControl(...) accepts a list of impulse responses iff it has one per control, their starting times lie in [0,T] and are non-decreasing; the delay must be >= 0 and the offset vector (if given) must have M entries; it raises otherwise.", "quantifier": "every list of impulse responses, period, delay and offset vector", "why_tests_cant": "Decision logic over arbitrary-length lists.", "anchors": ["src/cbadc/digital_control/digital_control.py: DigitalControl.__init__, _initialize_impulse_response"]}
{"id": "C16", "title": "Every control is updated once per clock period of a simulation", "statement": "In the time-domain simulation each of the M controls is re-decided in each clock period (at its phase).", "quantifier": "every accepted phase assignment and every period", "why_tests_cant": "Tests check the existence of multi-phase objects, not the decisions taken over all periods.", "anchors": ["src/cbadc/digital_control/digital_control.py: _setup_clock_phases, control_update", "src/cbadc/simulator/numerical_simulator.py: FullSimulator.__next__"]}
{"id": "C17", "title": "The multi-level quantiser is a monotone nearest-level quantiser", "statement": "MultiLevelDigitalControl.quantize returns one of its n+1 references, is monotone in its argument, saturates at the extremes, is piecewise constant with the documented thresholds, and the returned decision is within half a step of the input for inputs in the no-overload range; for one level it equals the binary control. After any history of updates and resets the control signal of a control is the level of its last matching observation since the last reset and its decision is twice that minus one, both zero if there is none; after a first reset all levels but the highest count as zero.", "quantifier": "every number of levels n >= 1, every real input and every history of calls", "why_tests_cant": "Real-valued inputs and an unbounded number of levels.", "anchors": ["src/cbadc/digital_control/multi_level_digital_control.py: quantize, control_update, __init__"]}
{"id": "C18", "title": "Comparator offsets given to a multi-level control are honoured", "statement": "The thresholds of a MultiLevelDigitalControl built with offsets are shifted by these offsets.", "quantifier": "every offset vector", "why_tests_cant": "Existing tests only use zero offsets; the effect is on all decisions.", "anchors": ["src/cbadc/digital_control/multi_level_digital_control.py: __init__"]}
{"id": "C19", "title": "Dithered control emits dither first and real decisions after", "statement": "A DitherControl's control signal is the dither values followed by the wrapped control's signal; each dither entry is a value of its own column of the pre-drawn table, rows being consumed in order (one row per dither decision), wrapping around, or 1/2 while dithering is switched off; the wrapped decisions are exactly those of the wrapped control on the same observations.", "quantifier": "every number of dithers, every history of updates", "why_tests_cant": "Histories of arbitrary length.", "anchors": ["src/cbadc/digital_control/dither_control.py: DitherControl.control_update, control_signal"]}
{"id": "C20", "title": "Control-bounded converters stay bounded for all time", "statement": "For the chain-of-integrators analog frontend with kappa_n = beta_n, |beta_n| T <= 1/2 and no local feedback as produced by the synthesis helpers, if the input signal never exceeds 1 in magnitude and all states start within [-1,1], then every integrator state stays in [-1,1] at all times.", "quantifier": "every number of integrators, every bounded input waveform, every initial state in the box and all times", "why_tests_cant": "A statement about all inputs and unbounded time of a switched continuous-time system.", "anchors": ["src/cbadc/analog_system/chain_of_integrators.py: ChainOfIntegrators", "src/cbadc/digital_control/digital_control.py: control_update, control_contribution", "src/cbadc/synthesis/chain_of_integrators.py: get_chain_of_integrator"]}
{"id": "C21", "title": "An analog system that is accepted is dimensionally consistent", "statement": "AnalogSystem(...) accepts matrices iff their shapes are those of a single (N,L,M,M_tilde,N_tilde) system, in which case derivative, signal_output and control_observation are defined with vectors of the documented lengths.", "quantifier": "all shapes of all eight matrices, including omitted optional ones", "why_tests_cant": "Seven matrices with independent shapes; tests try a handful of mismatches.", "anchors": ["src/cbadc/analog_system/analog_system.py: AnalogSystem.__init__"]}
{"id": "C22", "title": "Chaining analog systems multiplies their transfer functions", "statement": "The transfer function matrix of chain([G1,...,Gn]) is the product Gn(s)...G1(s) at every frequency where the individual systems have none of their poles.", "quantifier": "every list of compatible systems and every complex frequency that is not a pole", "why_tests_cant": "All sizes, all matrices and all frequencies.", "anchors": ["src/cbadc/analog_system/topology.py: chain"]}
{"id": "C23", "title": "Stacking analog systems makes them act independently", "statement": "The transfer function matrix of stack([G1,...,Gn]) is block diagonal with blocks G1(s),...,Gn(s), and a trajectory of the stack is exactly a trajectory for each part.", "quantifier": "every list of systems and every frequency / state", "why_tests_cant": "All sizes and matrices.", "anchors": ["src/cbadc/analog_system/topology.py: stack"]}
{"id": "C24", "title": "Transfer-function realisation is exact", "statement": "tf2abcd(b,a) returns a state space (A,B,C,D) whose transfer function C(sI-A)^-1 B + D equals b(s)/a(s) wherever a(s) != 0.", "quantifier": "every polynomial pair with deg b < deg a (or equal) and every frequency", "why_tests_cant": "All orders, coefficients, and frequencies.", "anchors": ["src/cbadc/analog_system/topology.py: tf2abcd"]}
{"id": "C25", "title": "Second-order-section realisation is exact", "statement": "sos2abcd(sos) returns a state space whose transfer function equals the product of the biquad transfer functions.", "quantifier": "every number of sections, coefficients and frequencies", "why_tests_cant": "All cascades.", "anchors": ["src/cbadc/analog_system/topology.py: sos2abcd"]}
{"id": "C26", "title": "Zero-pole-gain realisation is exact", "statement": "zpk2abcd(z,p,k) returns state space parameters whose transfer function is k * prod(s-z)/prod(s-p).", "quantifier": "every conjugate-closed zero / pole pattern, every gain including negative ones", "why_tests_cant": "All patterns and gains.", "anchors": ["src/cbadc/analog_system/topology.py: zpk2abcd"]}
{"id": "C27", "title": "The control observation is defined however its arguments are supplied", "statement": "AnalogSystem.control_observation(x, u, s) returns Gamma_tilde^T x + B_tilde u + A_tilde s with missing u or s contributing nothing.", "quantifier": "every system, state and combination of supplied arguments", "why_tests_cant": "One of four branches returns nothing; property over all branches and sizes.", "anchors": ["src/cbadc/analog_system/analog_system.py: AnalogSystem.control_observation"]}
{"id": "C28", "title": "Simulated time advances by exactly one period per control vector", "statement": "Each next() of the full simulator advances time by exactly T, evaluates control decisions at the period's start with the state at that instant, and then integrates the system's differential equation over one period under these decisions; the state vector after n calls is the solution of the switched system at nT.", "quantifier": "every system, any input signals, every number of calls", "why_tests_cant": "Quantifies over systems, inputs, and unbounded call counts.", "anchors": ["src/cbadc/simulator/numerical_simulator.py: FullSimulator.__next__, _ordinary_differential_solution"]}
{"id": "C29", "title": "The pre-computed simulator equals the exact solution", "statement": "For piecewise-constant and sinusoidal inputs the pre-computed simulator's state after each period equals the exact solution of the system's differential equation at the period's end.", "quantifier": "every system, every admissible input and every number of calls", "why_tests_cant": "All systems, all inputs; tests compare two simulators at a tolerance for one system.", "anchors": ["src/cbadc/simulator/numerical_simulator.py: PreComputedControlSignalsSimulator"]}
{"id": "C30", "title": "extended_simulation_result pairs each control vector with the state after it and never changes it afterwards", "statement": "extended_simulation_result yields, for the k-th item, copies of the k-th control vector and of the analog state after it, which later steps do not alter.", "quantifier": "every simulator and number of steps", "why_tests_cant": "Aliasing over histories.", "anchors": ["src/cbadc/simulator/utilities.py: extended_simulation_result"]}
{"id": "C31", "title": "The FIR estimator computes the reference estimate", "statement": "The n-th output of FIRFilter is offset plus the truncated forward/backward estimate, with K1 past and K2 present and future control vectors 2 s - 1, of the sample K2 - 1 = filter_lag + 1 positions before the last consumed one, with zero contribution from samples before the stream start.", "quantifier": "every filter (Af,Ab,Bf,Bb,WT,K1,K2), every control stream and every output index", "why_tests_cant": "Streams and filters of every size.", "anchors": ["src/cbadc/digital_estimator/fir_estimator.py: FIRFilter.__init__, __next__"]}
{"id": "C32", "title": "The batch estimator computes the reference estimate", "statement": "The n-th output of BatchEstimator equals -WT m_f[n] + WT m_b[n] where m_f is the full forward recursion over the control stream and m_b the backward recursion started at zero at the end of the look-ahead window of its batch.", "quantifier": "every filter, batch size K1, look-ahead K2, stream and output index", "why_tests_cant": "Batching carries state across an unbounded number of batches.", "anchors": ["src/cbadc/digital_estimator/batch_estimator.py: BatchEstimator.__next__, _compute_batch, _input"]}
{"id": "C33", "title": "The IIR estimator computes the reference estimate", "statement": "The n-th output of IIRFilter equals -WT m_f + WT m_b where m_f is the full forward recursion over all control vectors older than K2 samples and m_b the backward recursion over the K2 latest.", "quantifier": "every filter, look-ahead K2 >= 1, stream and output index", "why_tests_cant": "State carried across unbounded streams.", "anchors": ["src/cbadc/digital_estimator/iir_estimator.py: IIRFilter.__next__"]}
{"id": "C34", "title": "The parallel estimator equals the batch estimator", "statement": "For binary control signals and diagonalisable coefficient matrices ParallelEstimator yields the same estimates as BatchEstimator with the same parameters.", "quantifier": "every filter with eigen-decomposition, every 0/1 stream, every output index", "why_tests_cant": "Infinite streams and all filters.", "anchors": ["src/cbadc/digital_estimator/parallel_digital_estimator.py: ParallelEstimator._compute_batch, __next__"]}
{"id": "C35", "title": "The estimators agree with each other", "statement": "Driven by the same control stream, the FIR and the IIR estimator differ only by the truncated part of the forward recursion and the IIR and batch estimators only by the length of the look-ahead; where these windows coincide the outputs coincide.", "quantifier": "every filter, stream and index", "why_tests_cant": "Relational over two implementations.", "anchors": ["src/cbadc/digital_estimator/fir_estimator.py: FIRFilter", "src/cbadc/digital_estimator/iir_estimator.py: IIRFilter", "src/cbadc/digital_estimator/batch_estimator.py: BatchEstimator"]}
{"id": "C36", "title": "stop_after_number_of_iterations bounds the number of estimates exactly", "statement": "An estimator constructed with stop_after_number_of_iterations = n yields exactly n estimates from a stream that is long enough.", "quantifier": "every n, batch size and stream", "why_tests_cant": "Depends on the interplay of n with the batch size / downsampling factor for all values.", "anchors": ["src/cbadc/digital_estimator/fir_estimator.py: FIRFilter.__next__", "src/cbadc/digital_estimator/iir_estimator.py: IIRFilter.__next__", "src/cbadc/digital_estimator/batch_estimator.py: BatchEstimator.__next__"]}
{"id": "C37", "title": "Downsampling an FIR estimator equals decimating its output", "statement": "The n-th output of an FIRFilter with downsample = D equals the (D(n+1)-1)-th output of the same filter with downsample = 1.", "quantifier": "every filter, stream, D >= 1 and n", "why_tests_cant": "All D and n.", "anchors": ["src/cbadc/digital_estimator/fir_estimator.py: FIRFilter.__next__"]}
{"id": "C38", "title": "A finished stream yields no invented estimates", "statement": "When the control-signal source ends, an estimator only returns estimates that are computed from received control signals; it does not extend the stream with fabricated samples.", "quantifier": "every stream length and batch configuration", "why_tests_cant": "Depends on the stream length modulo batch size.", "anchors": ["src/cbadc/digital_estimator/batch_estimator.py: BatchEstimator.__next__", "src/cbadc/digital_estimator/fir_estimator.py: FIRFilter.__next__"]}
{"id": "C39", "title": "FIR estimates depend only on the last K1+K2 control vectors and are affine in them", "statement": "After K1+K2 samples the FIR output does not depend on anything older, including whatever was fed before set_iterator; outputs are affine in the control stream, and a constant offset shifts every output.", "quantifier": "every filter, two arbitrary histories agreeing on the window", "why_tests_cant": "Two-history property.", "anchors": ["src/cbadc/digital_estimator/fir_estimator.py: FIRFilter.__next__"]}
{"id": "C40", "title": "Convolving an FIR estimator with a filter is cascading", "statement": "After FIRFilter.convolve(f) the estimator's impulse response is the linear convolution of the previous response and f restricted to the window, so estimates equal filtering the former estimates.", "quantifier": "every filter f and every coefficient tensor", "why_tests_cant": "All lengths (odd and even).", "anchors": ["src/cbadc/digital_estimator/fir_estimator.py: FIRFilter.convolve"]}
{"id": "C41", "title": "Signal and noise transfer function are consistent and bounded", "statement": "For the single-input estimator STF(w) = |NTF(w) G(w)| and 0 <= STF(w) < 1 whenever eta2 > 0, strictly increasing in ||G||; STF = 1/2 exactly where ||G||^2 = eta2, so eta2 = analog_system.eta2(BW) places that point at BW.", "quantifier": "every frequency, transfer function vector and eta2 > 0", "why_tests_cant": "All frequencies and systems.", "anchors": ["src/cbadc/digital_estimator/batch_estimator.py: noise_transfer_function, signal_transfer_function"]}
{"id": "C42", "title": "RLS training solves the regularised weighted least squares problem", "statement": "After any number of RLS steps starting from zero weights, V is the inverse of lambda^n delta I + sum lambda^(n-i) x_i x_i^T and the coefficients satisfy the corresponding normal equations.", "quantifier": "every data sequence of every length, every delta > 0 and 0 < lambda <= 1", "why_tests_cant": "Invariant over unbounded sequences of real-valued updates.", "anchors": ["src/cbadc/digital_estimator/adaptive_filter.py: AdaptiveFIRFilter.rls"]}
{"id": "C43", "title": "The LMS gradient is the gradient of the loss", "statement": "gradient(x,y) is one half of the true derivative of loss(x,y) with respect to coefficients and offset; an LMS step with zero momentum strictly decreases the loss for a sufficiently small learning rate unless the gradient is zero.", "quantifier": "all real data, coefficients, directions", "why_tests_cant": "Derivative over all directions.", "anchors": ["src/cbadc/digital_estimator/adaptive_filter.py: AdaptiveFIRFilter.loss, gradient, lms"]}
{"id": "C44", "title": "Batching a signal for FIR processing produces the sliding windows", "statement": "batch(x,K)[i,m,k] = x[i+k,m] for all windows, and prediction on it equals correlation with the coefficients.", "quantifier": "every signal, every number of channels and window length", "why_tests_cant": "Depends on whether the channel count equals the window length.", "anchors": ["src/cbadc/digital_estimator/adaptive_filter.py: batch, AdaptiveFIRFilter.predict"]}
{"id": "C45", "title": "Peak search returns in-range, strictly increasing indices containing the global peak", "statement": "find_sinusoidal/find_n_sinusoidals return strictly increasing indices inside the spectrum; for n >= 1 and mask width >= 2 the index of the largest magnitude is among them; each later peak lies outside the range removed for the earlier ones unless the remaining spectrum is zero.", "quantifier": "every spectrum and number of tones; every mask width and minimum distance for range and order, every mask width of at least 1 and nonnegative minimum distance for the description of the peaks", "why_tests_cant": "Every spectrum shape and peak position near the borders.", "anchors": ["src/cbadc/utilities.py: find_n_sinusoidals, find_sinusoidal"]}
{"id": "C46", "title": "Figures of merit convert losslessly", "statement": "enob_to_snr and snr_to_enob, and snr_to_dB and snr_from_dB are mutually inverse; both are strictly increasing; one extra bit is worth 20 log10(2) dB (6.02 within rounding of the constant used).", "quantifier": "all reals (positive SNRs)", "why_tests_cant": "Real analysis over all arguments.", "anchors": ["src/cbadc/fom.py: snr_to_enob, snr_to_dB, snr_from_dB, enob_to_snr"]}
{"id": "C47", "title": "Figures of merit respond to power, resolution and bandwidth in the right direction", "statement": "FoM_W is positive, decreases with ENOB and bandwidth and scales linearly with power; FoM_S increases with SNDR and bandwidth and decreases with power; halving power buys exactly 10 log10(2) dB in FoM_S.", "quantifier": "all positive powers, bandwidths and resolutions", "why_tests_cant": "Real-valued monotonicity.", "anchors": ["src/cbadc/fom.py: FoM_W, FoM_S"]}
{"id": "C48", "title": "Synthesis from OSR honours the specification", "statement": "get_chain_of_integrator(N, OSR, BW) and (N, OSR, T) give the same design when T = 1/(2 OSR BW); the resulting frontend has kappa = beta, |beta| T = 1/2, i.e. satisfies the boundedness condition; unsupported combinations raise.", "quantifier": "all N, OSR, BW, T > 0", "why_tests_cant": "All real specifications.", "anchors": ["src/cbadc/synthesis/chain_of_integrators.py: get_chain_of_integrator"]}
{"id": "C49", "title": "Requested excess loop delay is part of the synthesised frontend", "statement": "A frontend synthesised with excess_delay = d has a digital control whose decisions take effect d after the clock edge.", "quantifier": "every specification with excess_delay > 0", "why_tests_cant": "Tests check that synthesis runs; the effect is on every simulation.", "anchors": ["src/cbadc/synthesis/chain_of_integrators.py: get_chain_of_integrator"]}
{"id": "C50", "title": "Sigma-delta import preserves the loop filter", "statement": "ctsd_abcd2af reproduces the A, B and feedback matrices (scaled by the sample rate) and the quantiser input of the given ABCD loop filter, at the requested period and number of levels.", "quantifier": "every order N and every real ABCD matrix", "why_tests_cant": "All matrices, including those with diagonal entries and N >= 10 where generated names could collide.", "anchors": ["src/cbadc/synthesis/continuous_time_sigma_delta.py: _schreier_abcd_to_ulm_dict, ctsd_dict2af, ctsd_abcd2af"]}
{"id": "C51", "title": "Circuit connections form nets", "statement": "After any sequence of connect calls on a subcircuit, two terminals are on the same net iff they are linked by a chain of connect calls.", "quantifier": "every set of terminals and every sequence of connections", "why_tests_cant": "Order-dependent; tests only connect in the convenient order.", "anchors": ["src/cbadc/circuit/__init__.py: SubCircuitElement.connect, Port"]}
{"id": "C52", "title": "The op-amp integrator netlist realises the state-space model", "statement": "With ideal differential op-amps the generated resistor/capacitor network of the op-amp frontend obeys dx/dt = A x + B u + Gamma s with the given matrices.", "quantifier": "every size and all real matrices including zero and negative entries", "why_tests_cant": "All matrices, signs.", "anchors": ["src/cbadc/circuit/opamp.py: _generate_resistor_pair, StateSpaceOpAmp / OpAmpFrontend"]}
{"id": "C53", "title": "The Gm-C netlist realises the state-space model", "statement": "With ideal transconductors the generated OTA/capacitor network obeys dx/dt = A x + B u + Gamma s with the given matrices.", "quantifier": "every size and all real matrices", "why_tests_cant": "All matrices, signs.", "anchors": ["src/cbadc/circuit/ota.py: MultiInputOTA, _generate_ota_coupling"]}
{"id": "C54", "title": "Terminal lookup returns the terminal that was added", "statement": "After any sequence of additions of terminals to a circuit element, looking up a name returns the terminal added under that name, duplicate names are rejected, and the order of terminals is preserved. add_terminals of a new element accepts a list exactly if no two terminals have the same name and raises ValueError otherwise.", "quantifier": "every sequence of additions", "why_tests_cant": "History property.", "anchors": ["src/cbadc/circuit/__init__.py: CircuitElement.add_terminal, __getitem__, add_terminals"]}
{"id": "C55", "title": "Clock signals are periodic and next_tick is the next edge", "statement": "Clock.evaluate is T-periodic and bounded by its swing; next_tick(t) returns the smallest clock edge time >= t.", "quantifier": "every clock the constructor accepts and every real t", "why_tests_cant": "Real-valued arguments and parameters.", "anchors": ["src/cbadc/analog_signal/clock.py: Clock.clock_edge, next_tick, __init__"]}
{"id": "C56", "title": "Reference signals only take values of their alphabet and are held for a period", "statement": "Binary, ternary and uniform reference signals only ever return values of their documented set / interval, and the value only changes when at least one period has passed since the last change. n calls of tick() bring a uniform signal to its draw number n.", "quantifier": "every sequence of evaluation times and every random draw", "why_tests_cant": "All evaluation schedules.", "anchors": ["src/cbadc/analog_signal/random.py: _FiniteRandomSignal.evaluate, UniformReferenceSignal.evaluate"]}
{"id": "C57", "title": "Quadrature pairs preserve energy", "statement": "For the pair returned by get_quadrature_signal_pair, i(t)^2+q(t)^2 = amplitude^2 (I(t)^2+Q(t)^2) at all times.", "quantifier": "all baseband signals and all times", "why_tests_cant": "All real arguments.", "anchors": ["src/cbadc/analog_signal/quadrature.py: get_quadrature_signal_pair, QuadratureSignal.evaluate"]}
{"id": "C58", "title": "Signals combine pointwise", "statement": "The sum and product of signals evaluate to the sum and product of the values for every combination of signal classes; a combination is declared piecewise constant only if all parts are.", "quantifier": "all expressions over the signal classes and all times", "why_tests_cant": "Expression trees of any depth.", "anchors": ["src/cbadc/analog_signal/_analog_signal.py: SuperpositionSignal, ModulatedSignal", "src/cbadc/analog_signal/zero_order_hold.py: ZeroOrderHold.__call__"]}
{"id": "C59", "title": "A dithered control contributes its decisions at every time of the period", "statement": "DitherControl.control_contribution(t) returns, for every t in the period and every excess delay >= 0, the impulse responses times the DAC values 2s-1 of the applicable decisions.", "quantifier": "every dither control, history of updates, delay and evaluation time", "why_tests_cant": "The failing combination needs a delay and an evaluation time before it; tests only use zero delay.", "anchors": ["src/cbadc/digital_control/dither_control.py:DitherControl.__init__", "src/cbadc/digital_control/digital_control.py:DigitalControl.control_contribution"]}
{"id": "C60", "title": "ChainOfIntegrators is the documented network", "statement": "ChainOfIntegrators(beta, rho, kappa) for vectors of one length N (kappa a column) is accepted and its derivative is x_n' = rho_n x_n + beta_n x_{n-1} (the input for n = 0) + kappa_n s_n; control observation n is x_n with the sign opposite to kappa_n; other size combinations are rejected.", "quantifier": "every N, all coefficient vectors, states, inputs and control values", "why_tests_cant": "All sizes and coefficients; the size guards in the code have no effect, which no test notices.", "anchors": ["src/cbadc/analog_system/chain_of_integrators.py: ChainOfIntegrators"]}
{"id": "C61", "title": "LeapFrog is the documented network", "statement": "LeapFrog(beta, alpha, rho, kappa) for vectors of matching lengths is accepted and its derivative is x_n' = rho_n x_n + beta_n x_{n-1} (the input for n = 0) + alpha_n x_{n+1} (nothing for the last) + kappa_n s_n; control observation n is x_n with the sign opposite to kappa_n.", "quantifier": "every N, all coefficient vectors, states, inputs and control values", "why_tests_cant": "All sizes and coefficients.", "anchors": ["src/cbadc/analog_system/leap_frog.py: LeapFrog"]}
{"id": "C62", "title": "Leap-frog converters stay bounded for all time", "statement": "For LeapFrog with |beta_n| + |alpha_n| <= |kappa_n|, |kappa_n| T <= 1/2 and rho_n <= 0 and the default digital control, if the input never exceeds 1 in magnitude and the states start within [-1,1], every state stays in [-1,1] at all times of a simulation.", "quantifier": "every number of integrators, every bounded input waveform, every initial state in the box and all times", "why_tests_cant": "All inputs and unbounded time of a switched continuous-time system.", "anchors": ["src/cbadc/analog_system/leap_frog.py: LeapFrog", "src/cbadc/simulator/numerical_simulator.py: FullSimulator"]}
{"id": "C63", "title": "The ADC survey draws the right contours and selects the right entries", "statement": "A converter lies on the survey's contour line for a figure of merit exactly when its figure of merit has that value; selecting by bandwidth and resolution returns exactly the entries whose Nyquist frequency and ENOB lie in the half-open ranges, in data base order, and rejects reversed ranges; the envelopes start at their low-frequency value and worsen with frequency, the Walden envelope by the square root of two up to the corner frequency, and the Schreier envelope by as many dB as the Walden envelope grows; the jitter limit falls with frequency and by 20 log10(2) dB per doubling of the jitter.", "quantifier": "every data base, all ranges, all positive powers, frequencies and jitters", "why_tests_cant": "Real-valued equivalences over all arguments and every data base.", "anchors": ["src/cbadc/fom.py: MurmannSurvey"]}
{"id": "C64", "title": "LMS training sees every sample exactly once per epoch", "statement": "lms performs one coefficient update per batch; in every epoch the batches together contain every window of the (delayed) signal with its reference exactly once, in signal order unless shuffled; no batch exceeds batch_size and only the last of an epoch may be smaller.", "quantifier": "every signal length, batch size, delay, number of epochs and permutation", "why_tests_cant": "All lengths relative to the batch size, and every permutation.", "anchors": ["src/cbadc/digital_estimator/adaptive_filter.py: AdaptiveFIRFilter.lms, AdaptiveFIRFilter._batch"]}
{"id": "C65", "title": "Least squares training reaches the smallest possible loss", "statement": "After lstsq(x, y) the loss on the same data is, for every reference, at most the loss of any other choice of coefficients and offset.", "quantifier": "all data, all competing coefficients, real and complex data types", "why_tests_cant": "Optimality against every competitor.", "anchors": ["src/cbadc/digital_estimator/adaptive_filter.py: AdaptiveFIRFilter.lstsq, AdaptiveFIRFilter.loss"]}
{"id": "C66", "title": "Training methods can be combined", "statement": "After any successful training call the offset can be read with get_offset and training can be continued with any of the methods.", "quantifier": "every sequence of training calls", "why_tests_cant": "All sequences of calls.", "anchors": ["src/cbadc/digital_estimator/adaptive_filter.py: AdaptiveFIRFilter.lms, rls, lstsq, get_offset"]}
{"id": "C67", "title": "The recursive filter obeys its difference equation", "statement": "AdaptiveIIRFilter.predict returns out[n] = sum of forward coefficients times window n, plus the offset, plus the feedback coefficients times the K previous outputs (zero before the start), for each reference.", "quantifier": "every signal, every coefficients, every n", "why_tests_cant": "Unbounded recursion over all signals.", "anchors": ["src/cbadc/digital_estimator/adaptive_filter.py: AdaptiveIIRFilter.predict"]}
{"id": "C68", "title": "A delayed clock is the same clock, later", "statement": "delay_clock_by_duty_cycle(clock, delay) returns a clock whose waveform is that of the given clock shifted by the delay (by the pulse width if no delay is given), and raises when the total delay exceeds one period.", "quantifier": "every clock the constructor accepts, every delay, every time", "why_tests_cant": "Waveforms are compared at all real times and for all duty cycles; tests only look at a symmetric clock.", "anchors": ["src/cbadc/analog_signal/clock.py: delay_clock_by_duty_cycle, Clock.__init__, Clock.evaluate"]}
{"id": "C69", "title": "Signals stay within their amplitude around their offset", "statement": "Ramps, sinusoids and sinc pulses of amplitude A and offset o satisfy |u(t) - o| <= A (A/2 for ramps, whose peak-to-peak amplitude is A) at all times; sinusoids repeat after 1/f, a sinc pulse peaks at t0 and vanishes at the other multiples of 1/(2 BW).", "quantifier": "all parameters and all real times", "why_tests_cant": "Real-valued arguments and parameters.", "anchors": ["src/cbadc/analog_signal/ramp.py: Ramp.evaluate", "src/cbadc/analog_signal/sinusoidal.py: Sinusoidal.evaluate", "src/cbadc/analog_signal/sinc_pulse.py: SincPulse.evaluate"]}
{"id": "C70", "title": "Held samples are held for one period each and repeat periodically", "statement": "ZeroOrderHold(data, T) returns data[k mod n] at all times in [k T, (k+1) T), for every integer k.", "quantifier": "all data, periods and times", "why_tests_cant": "All real times, including negative ones and any number of repetitions.", "anchors": ["src/cbadc/analog_signal/zero_order_hold.py: ZeroOrderHold.evaluate"]}
{"id": "C71", "title": "Signals declared piecewise constant are", "statement": "A signal whose piecewise_constant attribute is true takes only finitely many values, and a combination is declared piecewise constant exactly if all parts are; every signal can be combined.", "quantifier": "all expressions over the signal classes and all times", "why_tests_cant": "Expression trees of any depth and all real times; the pre-computed simulator relies on the attribute.", "anchors": ["src/cbadc/analog_signal/_analog_signal.py: SuperpositionSignal, ModulatedSignal", "src/cbadc/analog_signal/impulse_responses.py: _ImpulseResponse", "src/cbadc/analog_signal/random.py: GaussianReferenceSignal"]}
{"id": "C72", "title": "The numerical, multi-precision and symbolic forms of a signal agree", "statement": "For every signal class, the multi-precision value and the symbolic expression equal evaluate(t) at all times.", "quantifier": "all signal classes, parameters and times", "why_tests_cant": "All real times and parameters; the forms are used by different simulators and coefficient solvers.", "anchors": ["src/cbadc/analog_signal/sinc_pulse.py: SincPulse", "src/cbadc/analog_signal/impulse_responses.py: StepResponse, NonReturnToZeroDAC, RCImpulseResponse", "src/cbadc/analog_signal/sinusoidal.py: Sinusoidal"]}
{"id": "C73", "title": "Reference signals are functions of time", "statement": "Evaluating a random reference signal twice at the same time gives the same value, whatever was evaluated in between.", "quantifier": "all evaluation schedules and all draws", "why_tests_cant": "Adaptive ODE solvers evaluate at arbitrary, also decreasing, times.", "anchors": ["src/cbadc/analog_signal/random.py: _FiniteRandomSignal.evaluate, UniformReferenceSignal.evaluate"]}
{"id": "C74", "title": "Phase and offset of a quadrature pair are honoured", "statement": "get_quadrature_signal_pair(amplitude, w, phase=p, offset=o) with the default baseband signals returns amplitude cos(w t + p) + o and amplitude sin(w t + p) + o.", "quantifier": "all parameters and times", "why_tests_cant": "All real parameters and times.", "anchors": ["src/cbadc/analog_signal/quadrature.py: get_quadrature_signal_pair"]}
{"id": "C75", "title": "Control-signal transfer function includes the output matrix", "statement": "AnalogSystem.control_signal_transfer_function_matrix evaluates C^T (i w I - A)^{-1} Gamma (up to sign), of shape N_tilde x M, and the estimator's control_signal_transfer_function is the magnitude of the noise transfer function times that matrix.", "quantifier": "every system, frequency and eta2 > 0", "why_tests_cant": "All systems with N != N_tilde or C != I; tests only compare plots.", "anchors": ["src/cbadc/analog_system/analog_system.py: AnalogSystem.control_signal_transfer_function_matrix", "src/cbadc/digital_estimator/batch_estimator.py: BatchEstimator.control_signal_transfer_function"]}
{"id": "C76", "title": "General transfer function is the transfer function from each state to each estimate", "statement": "general_transfer_function returns, for each frequency, the noise transfer function times C^T (i w I - A)^{-1}: the transfer function from a disturbance added to each state to each estimate.", "quantifier": "every system, frequency and eta2 > 0", "why_tests_cant": "All systems and frequencies; the phases of the noise transfer function matter.", "anchors": ["src/cbadc/digital_estimator/batch_estimator.py: BatchEstimator.general_transfer_function, noise_transfer_function"]}
{"id": "C77", "title": "SNR, SINAD and distortion figures of a spectrum are consistent", "statement": "The powers are the sums of the spectrum over the bins of the masks, negative bins counting from the end, and a bin outside raises IndexError. For a spectrum with positive signal and noise power, snr_spectrum_computation and snr_spectrum_computation_extended report the same SNR; thd_n^2 = thd^2 + 1/snr; sinad = 1 + 1/thd_n^2; sinad - 1 is at most the SNR, with equality exactly if there is no harmonic power; scaling the spectrum changes none of them; without noise power the simple function reports infinity; with no harmonics given the distortion is zero.", "quantifier": "every spectrum, masks and positive scale", "why_tests_cant": "All spectra and all index masks, including negative indices.", "anchors": ["src/cbadc/utilities.py: snr_spectrum_computation, snr_spectrum_computation_extended"]}
{"id": "C78", "title": "CSV reader delivers the lines in order and stops at the first malformed one", "statement": "csv_2_control_signal yields one control vector per line in file order (reversed per line when msb2lsb), raises RuntimeError at the first line whose number of entries is not M and yields nothing behind it, and ends with the file otherwise; a sequence written in either bit order is read back unchanged.", "quantifier": "every file, every M and both bit orders", "why_tests_cant": "All files of all lengths and all positions of a malformed line.", "anchors": ["src/cbadc/utilities.py: csv_2_control_signal"]}
{"id": "C79", "title": "Each part of a chain moves as it would alone, driven by the part before it", "statement": "For chain([G1,...,Gn]) with any state, input and control vector, the derivative restricted to the states of a part is the derivative of that part for its own states and controls and the output of the previous part as input; the output is that of the last part; the control observation restricted to the part is the control observation of the part.", "quantifier": "every list of accepted systems, part, state, input and control vector", "why_tests_cant": "All sizes, all matrices, all positions in the list.", "anchors": ["src/cbadc/analog_system/topology.py: chain", "src/cbadc/analog_system/analog_system.py: AnalogSystem.derivative, control_observation"]}
{"id": "C80", "title": "Synthesis from ENOB meets the in-band noise budget", "statement": "get_chain_of_integrator(ENOB, N, BW) gives an N-th order chain with |kappa| = |beta| and |beta| T = 1/2 for which the mean over the band of the squared inverse gain from the input to the last integrator is 1/(xi SNR), SNR being that of ENOB bits; specifying the SNR in dB gives the same frontend as the corresponding ENOB; more bits give a strictly faster clock.", "quantifier": "every N >= 1, BW > 0, xi > 0, ENOB whose clock period is accepted", "why_tests_cant": "A relation between an integral of the transfer function and the specification, for all real specifications.", "anchors": ["src/cbadc/synthesis/chain_of_integrators.py: get_chain_of_integrator, g_i"]}
{"id": "C81", "title": "Leap-frog synthesis puts its resonances into the band and meets the noise budget", "statement": "get_leap_frog(OSR, N, BW), (OSR, N, T) and (ENOB, N, BW) give structures with beta alpha = -(pi BW)^2, |beta| T = delta/2 and requested OSR or T; the poles are exactly i 2 pi BW cos(j pi/(N+1)), j = 1..N; the mean over the band of the squared inverse gain to the last integrator is 1/(xi SNR).", "quantifier": "every N >= 1, BW, OSR, T, delta, xi > 0 and ENOB whose clock period is accepted", "why_tests_cant": "Poles for all orders, integral of the transfer function for all specifications.", "anchors": ["src/cbadc/synthesis/leap_frog.py: get_leap_frog, g_i"]}
{"id": "C82", "title": "Synthesised leap-frog converters are never overloaded", "statement": "For a frontend from get_leap_frog and inputs within [-1, 1], states that start in [-1, 1] stay in [-1, 1].", "quantifier": "every specification, input, start state and time", "why_tests_cant": "All inputs, all times.", "anchors": ["src/cbadc/synthesis/leap_frog.py: get_leap_frog"]}
{"id": "C83", "title": "Sigma-delta file import builds the described modulator", "statement": "ctsd_dict2af builds the modulator that the active coefficients of the dictionary describe (b: input, a: feedback, c/d/e: connections between states and to the quantiser), scaled by the sample rate; coefficients that are not active do not take part.", "quantifier": "every dictionary, order, period, DAC scale and number of levels", "why_tests_cant": "All dictionaries, including ones with inactive coefficients and several connections between two states.", "anchors": ["src/cbadc/synthesis/continuous_time_sigma_delta.py: ctsd2abc, ctsd2gamma, _get_coeff_value, ctsd_dict2af"]}
{"id": "C84", "title": "A bandpass frontend is the baseband frontend moved to the carrier", "statement": "get_bandpass(analog_frontend, fc) gives a converter that, seen in the frame rotating at fc, is the original frontend: state pairs demodulate to trajectories of the baseband system driven by the demodulated input and control, the observations are those of the baseband system, and its transfer function is the baseband one shifted by fc; with scalar_input the one input drives both quadratures.", "quantifier": "every frontend, carrier, trajectory, input and frequency", "why_tests_cant": "Trajectories over continuous time for all systems and carriers; tests sample one design at a few frequencies.", "anchors": ["src/cbadc/synthesis/quadrature.py: get_bandpass"]}
{"id": "C85", "title": "The default bandpass control compensates one period at the carrier", "statement": "Without modulate, get_bandpass replaces the control matrices so that over one clock period the held control moves the rotating state exactly as the baseband control moves the baseband state, with the requested phase phi and control delay delta_DC, and the control observation undoes the rotation.", "quantifier": "every frontend, carrier, phase, delay and period", "why_tests_cant": "An identity between integrals over the period for all real parameters.", "anchors": ["src/cbadc/synthesis/quadrature.py: get_bandpass"]}
{"id": "C86", "title": "First-order bandpass converters are control-bounded", "statement": "A simulated bandpass converter built by get_bandpass from a first-order frontend keeps its state within bounds for every input whose envelope stays below the reference, for ever, from every start in the bounds.", "quantifier": "every carrier, input, start state and number of periods", "why_tests_cant": "Unbounded executions over all inputs.", "anchors": ["src/cbadc/synthesis/quadrature.py: get_bandpass", "src/cbadc/simulator/numerical_simulator.py", "src/cbadc/digital_control/digital_control.py"]}
{"id": "C87", "title": "Chain-of-oscillators synthesis gives coupled resonators at the requested frequency", "statement": "get_chain_of_oscillators with (OSR, N, BW, fp), (OSR, N, T, fp), (ENOB, N, BW, fp) or (SNR, N, BW, fp) gives a frontend of N complex oscillators at fp, each driven by its predecessor (the first by the two inputs), its successor and its two controls, with beta T = 1/2 and coupling product -(pi BW)^2, that can be simulated.", "quantifier": "every order, bandwidth, ratio, frequency, state, input and control", "why_tests_cant": "All orders and real parameters; the structure is an identity between state matrices and complex dynamics.", "anchors": ["src/cbadc/synthesis/quadrature.py: get_chain_of_oscillators, _analog_system_factory"]}
{"id": "C88", "title": "Parallel leap-frog synthesis couples copies of the leap-frog structure without loss", "statement": "get_parallel_leapfrog(ENOB, N, M, BW, fp[, fps]) gives M copies of the leap-frog structure for ENOB, N and BW that share one input, have their own controls and observations, and are pairwise coupled by the resonances with opposite signs, which does not change the total energy; every width M works.", "quantifier": "every specification, width, list of resonances, state, input and control", "why_tests_cant": "All widths and orders.", "anchors": ["src/cbadc/synthesis/quadrature.py: get_parallel_leapfrog"]}
{"id": "C89", "title": "The netlist has one node per net", "statement": "In the generated netlist two connected terminals are printed with the same node name iff a chain of connections links them.", "quantifier": "every set of terminals with names and every sequence of connections", "why_tests_cant": "Depends on the names and the order of all connections; a short circuit in a generated netlist goes unnoticed by tests on the text.", "anchors": ["src/cbadc/circuit/__init__.py: SubCircuitElement.connect, CircuitElement._get_terminal_names"]}
{"id": "C90", "title": "A finite DC gain of the Gm-C frontend is the gain the user asked for", "statement": "GmCFrontend with a finite DC_gain describes a circuit in which the integrator with the largest input coefficient has, at DC and without feedback, the gain DC_gain from its input to its state.", "quantifier": "every system, capacitance and gain", "why_tests_cant": "The netlist text shows a resistor value; what gain results takes the circuit laws, for all matrices.", "anchors": ["src/cbadc/circuit/ota.py: MultiInputOTA, GmCFrontend"]}
{"id": "C91", "title": "In the dither control circuit every random control is driven by its own reference sequence", "statement": "The netlist of DitherControl with R random controls connects, for every m < R, reference sequence m to flip-flop m, flip-flop m (clocked by CLK) to the two converters of control m, and these to S{m}_P and S{m}_N; the outputs of different flip-flops are on different nodes and shared with nothing else.", "quantifier": "all numbers of states, inputs, controls and random controls", "why_tests_cant": "The tests render a netlist with one configuration and never check which terminals share a node; the node names come from the order of connect calls and from terminal names.", "anchors": ["src/cbadc/circuit/digital_control.py: DitherControl", "src/cbadc/circuit/components/comparator.py: D_FLIP_FLOP, DAC_Bridge, ADCBridgeAbsolute", "src/cbadc/circuit/__init__.py: SubCircuitElement.connect"]}
{"id": "C92", "title": "The generated op-amp model has the DC gain and the gain-bandwidth product it was given", "statement": "The sub-circuit written for OpAmp(instance_name, GBWP, DC_gain) draws no input current, drives its two outputs symmetrically about VCM, has the constant-signal gain DC_gain from its differential input to its output, and unity gain at the frequency GBWP (up to the factor DC_gain/sqrt(1+DC_gain^2) of a one-pole response). A zero GBWP or zero internal capacitance is rejected by ZeroDivisionError.", "quantifier": "all GBWP, DC gains and internal capacitances, all waveforms of the seven terminals", "why_tests_cant": "The tests only render the netlist to text. That the text describes a one-pole amplifier with the requested numbers is a statement about all solutions of a circuit.", "anchors": ["src/cbadc/circuit/components/opamp.py: OpAmp", "src/cbadc/circuit/components/passives.py: Resistor, Capacitor", "src/cbadc/circuit/components/sources.py: VoltageControlledVoltageSource"]}
{"id": "C93", "title": "The op-amp frontend built from generated op-amps follows the state equation up to an error that vanishes with the gain and the bandwidth", "statement": "For an OpAmpFrontend whose op-amps have DC gain A and gain-bandwidth product g, every solution of the generated circuit with states bounded by X and slopes bounded by V is within (V/(2 pi g) + X/A)/2 of a function whose derivative differs from the right-hand side of the analog system's state equation by at most the absolute row sums times the same bound.", "quantifier": "all analog systems (numbers of states, inputs and controls), capacitances, positive gains and bandwidths, all waveforms that obey the netlist and Kirchhoff's current law at the virtual grounds", "why_tests_cant": "The tests compare netlist text. Convergence of a circuit with finite gain to the ideal one is a statement about all solutions for all parameter values.", "anchors": ["src/cbadc/circuit/opamp.py: OpAmpFrontend", "src/cbadc/circuit/components/opamp.py: OpAmp"]}
{"id": "C94", "title": "The digital control circuit compares what control_observation returns", "statement": "The circuit DigitalControl (with dither_offset d) can be built exactly for analog systems with M - d = M_tilde rows of the control observation. In every solution of the netlist and of its comparator sub-circuits, the comparator that drives S{d+i}_P and S{d+i}_N receives, up to the constant output offset of the summer, entry i of AnalogSystem.control_observation(x, u, s) for the differential states, inputs and controls at the terminals, and it is clocked by CLK. No other comparator drives these terminals.", "quantifier": "all analog systems and dither offsets, all waveforms at the terminals", "why_tests_cant": "The tests render netlists for a few systems and do not interpret them. Which gain meets which input depends on the pairing of 2(N+L+M) unnamed terminals.", "anchors": ["src/cbadc/circuit/digital_control.py: DigitalControl, MultiInputComparator", "src/cbadc/circuit/components/summer.py: DifferentialSummer", "src/cbadc/analog_system/analog_system.py: AnalogSystem.control_observation"]}
{"id": "C95", "title": "The estimate is the least-squares input, and the filters realise the reported transfer functions", "statement": "Whatever the control decisions were, there is exactly one input that explains them at least cost (energy of the input, plus energy of the observed outputs divided by eta2, plus quadratic costs of the first and last state), where the controls act on the analog system through what DigitalControl.control_contribution reports. The values returned by BatchEstimator and IIRFilter are samples of that input for the decisions read so far. For sinusoids, the filters turn the control contribution into STF u - NTF y with the transfer functions reported by the estimator.", "quantifier": "all analog systems, all waveforms that start at the updates, all decision sequences, all horizons, all frequencies", "why_tests_cant": "Tests compare estimates with a known input to a tolerance for a few systems; optimality is a statement about all other inputs, and about all decision sequences.", "anchors": ["src/cbadc/digital_estimator/_filter_coefficients.py: compute_filter_coefficients", "src/cbadc/digital_estimator/batch_estimator.py: BatchEstimator.__next__, general_transfer_function", "src/cbadc/digital_estimator/iir_estimator.py: IIRFilter.__next__"]}
{"id": "C96", "title": "The filter coefficients carry the filters exactly from one update to the next, with every backend", "statement": "Af, Bf (and Ab, Bb) computed with the numpy, mpmath (default) or sympy backend carry every solution of the forward (backward) filter equation, driven by the contribution of the controls, from one update to the next (previous) one.", "quantifier": "all analog systems, all waveforms of the package with all parameters that DigitalControl accepts, all control decisions", "why_tests_cant": "The tests compare backends to a tolerance for step responses that start at zero; the backends treat start times and reversed time differently.", "anchors": ["src/cbadc/digital_estimator/_filter_coefficients.py: _numerical_solver, _mp_solver, _analytical_solver, reverse_signal", "src/cbadc/analog_signal/impulse_responses.py: StepResponse, NonReturnToZeroDAC, RCImpulseResponse", "src/cbadc/ode_solver/mpmath.py", "src/cbadc/ode_solver/sympy.py"]}
{"id": "C97", "title": "mid_point=True changes only how the filter coefficients are computed", "statement": "For waveforms that are constant during a period, the coefficients computed with mid_point=True carry the filters exactly from one update to the next, as those computed with mid_point=False do.", "quantifier": "all analog systems, all waveforms that are constant during a period, all control decisions, all backends", "why_tests_cant": "Tests check that the option is accepted.", "anchors": ["src/cbadc/digital_estimator/_filter_coefficients.py: _mid_point, compute_filter_coefficients"]}
{"id": "C98", "title": "care returns the stabilising solution and the filters are stable", "statement": "For an analog system whose states can all be reached from the inputs and all be seen in the control observations, and any eta2 > 0: the inversion in care does not raise, both results are symmetric positive definite and the only stabilising solutions of their Riccati equations, whichever eigenvectors are found; and the powers of Af and Ab vanish, so that the filters forget.", "quantifier": "all analog systems with a controllable and observable state, all eta2 > 0, all eigenvector bases", "why_tests_cant": "Tests compare care with scipy for a few systems; which eigenvectors the decomposition returns, and in which order, is not under their control.", "anchors": ["src/cbadc/digital_estimator/_filter_coefficients.py: care, _analytical_care, _numpy_care, compute_filter_coefficients"]}
{"id": "C99", "title": "The NUV estimator reads each batch and its look-ahead and nothing more, and ends as its stream ends", "statement": "NUVEstimator accepts exactly K1 >= 1, K2 >= 0 and a positive oversampling factor. When oversample divides K1 and K2, call n of next() returns an estimate that is a function of the first (floor(n/K1)*K1 + K1 + K2)/oversample decisions, and exactly these have been read. A stream that ends with RuntimeError is continued by zero decisions to the end of the batch, after which StopIteration is raised for ever; any other exception, such as StopIteration itself, is raised at once and again by all later calls, and the decisions of the incomplete batch are lost. If oversample does not divide K1 and K2, or the number of outputs is not the number of states, the constructor does not complain but the first or the second batch raises an exception.", "quantifier": "for all analog systems, coefficients, K1, K2, iteration counts, oversampling factors, decision streams and call indices", "why_tests_cant": "The schedule has to hold at every call of an unbounded stream, and for every position at which the stream may end; tests try a few sizes.", "anchors": ["src/cbadc/digital_estimator/nuv_estimator.py:NUVEstimator.__init__", "src/cbadc/digital_estimator/nuv_estimator.py:NUVEstimator.__next__", "src/cbadc/digital_estimator/nuv_estimator.py:NUVEstimator._input", "src/cbadc/digital_estimator/nuv_estimator.py:NUVEstimator._compute_batch"]}
{"id": "C100", "title": "The NUV estimates solve a smoothing problem for the analog system", "statement": "The estimates of a batch are the values, at the ends of the sampling periods, of the one input of the analog system that explains the decisions of the batch and its look-ahead with least cost: energy of the input divided by its prior variance covU, plus distance of the first state from what is expected of it, plus weighted distances of the outputs from the bounds.", "quantifier": "for all analog systems, waveforms, prior variances, bounds, K1, K2, iteration counts, decision streams and batches", "why_tests_cant": "Optimality over all inputs and trajectories in continuous time is a statement about a function space, and the message passing only solves it through a chain of matrix identities.", "anchors": ["src/cbadc/digital_estimator/nuv_estimator.py:NUVEstimator._compute_filter_coefficients", "src/cbadc/digital_estimator/nuv_estimator.py:NUVEstimator._MBF", "src/cbadc/digital_estimator/nuv_estimator.py:NUVEstimator._input_estimation"]}
{"id": "C101", "title": "Each NUV iteration improves the explanation or it was already the best", "statement": "Every iteration of the NUV estimator strictly decreases the cost of the explanation that its estimates are taken from, in which outputs are penalised in proportion to gamma and to their distance from the bounds, unless the explanation has already the least cost of all. The excess over the least cost is at most inversely proportional to the number of iterations, so that with enough iterations the estimates come from an explanation whose cost is as near to the least as one likes.", "quantifier": "for all analog systems, prior variances, positive gamma, bounds, iteration counts, decision streams and batches", "why_tests_cant": "Descent and optimality of a fixed point compare with all other inputs and trajectories; a test observes a few iterations of a few examples.", "anchors": ["src/cbadc/digital_estimator/nuv_estimator.py:NUVEstimator._compute_batch", "src/cbadc/digital_estimator/nuv_estimator.py:NUVEstimator._update_observation_bound_variances", "src/cbadc/digital_estimator/nuv_estimator.py:NUVEstimator._update_observation_statistics"]}
{"id": "C102", "title": "Consecutive windows of the NUV estimator join", "statement": "The state that a batch expects at its first sample time is the state that the batches before it lead to at that time, so that every decision contributes to the estimates of later batches.", "quantifier": "for all analog systems, K1, K2, iteration counts, decision streams and batches", "why_tests_cant": "Whether a decision has any influence on later outputs is a statement about all pairs of streams.", "anchors": ["src/cbadc/digital_estimator/nuv_estimator.py:NUVEstimator._compute_batch"]}
{"id": "C103", "title": "Global control decides for the least output energy over the following period", "statement": "With the analog frontend returned by get_global_control, each entry of the control observation, taken at the phase of the respective control signal, is the value of that signal for which the energy of the output of the analog system over the following clock period is least, given the state, constant inputs and the other control signals; decisions closer to it lead to less energy, so that the comparator takes the better one of its two decisions.", "quantifier": "for all analog systems, digital controls, phases, control signals, states, inputs and decisions", "why_tests_cant": "Optimality is a comparison of integrals along trajectories for all states, inputs and decisions; tests look at a few simulated states.", "anchors": ["src/cbadc/analog_frontend.py:get_global_control", "src/cbadc/analog_system/analog_system.py:AnalogSystem.control_observation", "src/cbadc/digital_control/digital_control.py:DigitalControl.control_update"]}
{"id": "C104", "title": "Global control changes nothing but the control observation", "statement": "The analog system in the frontend returned by get_global_control has the same dimensions, derivative, signal observation and transfer functions as the given one.", "quantifier": "for all analog systems, digital controls, phases, states, inputs, control signals and frequencies", "why_tests_cant": "Equality of behaviour for all arguments cannot be sampled.", "anchors": ["src/cbadc/analog_frontend.py:get_global_control", "src/cbadc/analog_system/analog_system.py:AnalogSystem.__init__"]}
{"id": "C105", "title": "inverse_state_trajectory recovers a constant drive from the state before and after", "statement": "inverse_state_trajectory(A, T) returns two matrices: the first maps any constant drive v to what it adds to the state of x' = A x + v after time T, and the second applied to the difference between the final state and exp(A T) times the first state gives v. If two drives cannot be told apart, as for a resonator and a full period, the inversion fails instead.", "quantifier": "for all matrices A, times T, drives and trajectories", "why_tests_cant": "The statement is about every trajectory of every linear system.", "anchors": ["src/cbadc/analog_frontend.py:inverse_state_trajectory"]}
{"id": "C106", "title": "unit_element_set gives distinct directions, chosen one by one to be least correlated", "statement": "unit_element_set(N, M, candidates) returns a matrix with M columns of length N whose entries are candidates; no column is zero and no two columns are equal or opposite. With candidates [-a, a, 0] it succeeds exactly if M is at most (3^N - 1)/2, and raises an exception otherwise; every column but the first is, among all admissible vectors that are not a previous column up to the sign, one whose scalar products with the previous columns are smallest relative to its length. The order of the candidates does not matter.", "quantifier": "for all N, M, candidates and columns", "why_tests_cant": "Distinctness up to the sign and optimality among exponentially many vectors for every size; tests try one or two sizes.", "anchors": ["src/cbadc/digital_control/utilities.py:unit_element_set"]}
{"id": "C107", "title": "overcomplete_set extends the given directions by unit vectors", "statement": "overcomplete_set(Gamma, M) returns max(M, number of columns of Gamma) columns of length one, beginning with the normalised columns of Gamma; as long as there are fewer columns than entries, each one added is orthogonal to all columns before.", "quantifier": "for all matrices without zero columns, numbers M and outcomes of the random numbers and the optimiser", "why_tests_cant": "The function is random and calls an optimiser; a test sees one outcome.", "anchors": ["src/cbadc/digital_control/utilities.py:overcomplete_set"]}
{"id": "C108", "title": "A sine-wave modulated system is a time-invariant system in the rotating frame", "statement": "With SineWaveModulator(analog_system, f), seen from the frame that rotates with f, the controls act as they are and the control observation is that of the analog system: the rotated state moves as with A less the rotation, driven by the rotated input and the controls. For a chain of oscillators at fp this is the chain of oscillators at fp - f.", "quantifier": "for all analog systems with even numbers of states and controls, whose matrices treat quadrature pairs as complex numbers, all frequencies, trajectories, inputs and controls", "why_tests_cant": "An equivalence of differential equations with time-varying coefficients along all trajectories.", "anchors": ["src/cbadc/analog_system/modulator.py:SineWaveModulator"]}
{"id": "C109", "title": "The modulator rotates the quadrature pairs of the synthesised systems", "statement": "SineWaveModulator applied to a chain of oscillators rotates each oscillator's two states (neighbouring states), and applied to a bandpass system it rotates each state with its partner half the states later; no state is mixed with one of another pair.", "quantifier": "for all numbers of states, frequencies, times and states", "why_tests_cant": "The pairing is right for the smallest systems, which are the ones tests use, and wrong for all others.", "anchors": ["src/cbadc/analog_system/modulator.py:SineWaveModulator", "src/cbadc/synthesis/quadrature.py:get_chain_of_oscillators", "src/cbadc/synthesis/quadrature.py:get_bandpass"]}
{"id": "C110", "title": "demodulate moves the spectrum of a signal down by Omega", "statement": "demodulate(signal, Omega) shifts the discrete-time spectrum of every channel down by Omega, changes no magnitude, and is undone by demodulate with -Omega; the axis argument (default 0) selects the time axis.", "quantifier": "for all one- and two-dimensional signals, all Omega and axes", "why_tests_cant": "An identity of spectra at every frequency for every signal and length.", "anchors": ["src/cbadc/digital_estimator/decimation_and_demodulation.py:demodulate"]}
{"id": "C111", "title": "decimate keeps the signal below half the new rate", "statement": "decimate(signal, DSR) returns the signal low-pass filtered at half the new sampling rate and sampled every DSR-th sample, without aliasing.", "quantifier": "for all band-limited periodic signals, lengths and decimation factors", "why_tests_cant": "Alias rejection is a statement about all frequencies at once; a test has a few tones.", "anchors": ["src/cbadc/digital_estimator/decimation_and_demodulation.py:decimate"]}
{"id": "C112", "title": "NumpySimulator replays recorded control signals", "statement": "A NumpySimulator made from an array or from a .npz file can be used as the control signal of an estimator: it delivers the rows in order, then StopIteration; reset starts over.", "quantifier": "for all arrays, files and numbers of calls and resets", "why_tests_cant": "Quantifies over all sequences of calls to next and reset.", "anchors": ["src/cbadc/simulator/numpy_simulator.py:NumpySimulator"]}
{"id": "C113", "title": "NGSpiceSimulator reads one control vector per falling clock edge", "statement": "Iterating over an NGSpiceSimulator gives ceil(t_end / T) control vectors with entries 0, 1/2, 1 according to the thirds of the supply voltage, one for each time the clock has become low, and then StopIteration; the circuit simulation is run once.", "quantifier": "for all recorded waveforms, end times, clock periods and numbers of calls", "why_tests_cant": "The parser is a state machine over a waveform of any length and shape.", "anchors": ["src/cbadc/circuit/simulator.py:NGSpiceSimulator"]}
{"id": "C114", "title": "The test bench applies the input signals, the supply and the clock", "statement": "In the netlist of a test bench, VDD is vdd and VCM is vdd/2; the clock is high in the first half of every clock period; the voltage between the two terminals of each input is the signal the user gave (amplitude, frequency, phase, offset), centred at VCM; signals other than sinusoidal ones are refused.", "quantifier": "for all lists of input signals, supplies, clocks and times", "why_tests_cant": "A statement about waveforms at all times, for netlists of any size.", "anchors": ["src/cbadc/circuit/testbench.py:TestBench", "src/cbadc/circuit/components/sources.py:SinusoidalVoltageSource", "src/cbadc/circuit/components/sources.py:PulseVoltageSource", "src/cbadc/circuit/components/sources.py:DCVoltageSource"]}
{"id": "C115", "title": "The k-th control vector of a circuit simulation belongs to the k-th clock period", "statement": "When a test bench is simulated by ngspice, the k-th control vector is the one that the digital control holds after its decision in the k-th clock period.", "quantifier": "for all test benches, end times, recordings with time steps below half a clock period, and k", "why_tests_cant": "Which sample is taken depends on the time points the circuit simulator happens to choose.", "anchors": ["src/cbadc/circuit/simulator.py:NGSpiceSimulator.parse", "src/cbadc/circuit/testbench.py:TestBench"]}
{"id": "C116", "title": "A Butterworth analog system is the Butterworth filter that was asked for", "statement": "ButterWorth(N, Wn) with N >= 1 and Wn > 0 is an analog system with N states, one input and one output; it is stable, its gain at zero frequency is one, and the squared magnitude of its transfer function at j*omega is 1/(1+(omega/Wn)^(2N)). A frequency that is not positive and the order zero are refused.", "quantifier": "for all orders, critical frequencies and frequencies, and however the sorting breaks ties", "why_tests_cant": "A statement about all orders and all frequencies; it involves the realisation as a chain of blocks for every order.", "anchors": ["src/cbadc/analog_system/filters.py:ButterWorth", "src/cbadc/analog_system/topology.py:zpk2abcd"]}
{"id": "C117", "title": "A Chebyshev type I analog system keeps its pass-band ripple", "statement": "ChebyshevI(N, Wn, rp) with N >= 1, Wn > 0 and rp > 0 is a stable analog system with N states; the squared magnitude of its transfer function is 1/(1+eps^2*T_N(omega/Wn)^2), it stays between -rp and 0 dB up to Wn and is below -rp dB beyond. Frequencies that are not positive, negative ripples and the order zero are refused.", "quantifier": "for all orders, critical frequencies, ripples and frequencies, and however the sorting breaks ties", "why_tests_cant": "A statement about all orders and all frequencies; a sampled response can miss a violation between the samples.", "anchors": ["src/cbadc/analog_system/filters.py:ChebyshevI", "src/cbadc/analog_system/topology.py:zpk2abcd"]}
{"id": "C118", "title": "A Chebyshev type II analog system reaches its stop-band attenuation", "statement": "ChebyshevII(N, Wn, rs) with N >= 1, Wn > 0 and rs > 0 is a stable analog system with N states and gain one at zero frequency; its magnitude response is the textbook one, at least rs dB below one from Wn on, and less than rs dB below one before.", "quantifier": "for all orders, critical frequencies, attenuations and frequencies, and however the sorting breaks ties", "why_tests_cant": "A statement about all orders and all frequencies; a sampled response can miss a violation between the samples.", "anchors": ["src/cbadc/analog_system/filters.py:ChebyshevII", "src/cbadc/analog_system/topology.py:zpk2abcd"]}
{"id": "C119", "title": "The LC frontend's netlist realises the ladder its models describe", "statement": "LCFrontend(M, L, C, gm, fc, Rin) accepts exactly M >= 1 with Rin*C and fc nonzero. Its extended analog system has the 2M-1 states of a ladder of M capacitors C joined by inductances 2L and driven through Rin, and the behaviours of its netlist (voltages over the capacitors, currents in the inductors, for every input and control waveform) are exactly the solutions of the state equation of that model.", "quantifier": "all M, L, C, gm, fc, Rin, all solver results, all input and control waveforms, all solutions of the circuit equations", "why_tests_cant": "The repository has no simulator for the netlist at hand; comparing two waveforms for one ladder says nothing about all sizes, components and inputs.", "anchors": ["src/cbadc/circuit/lc_tank.py:LCFrontend"]}
{"id": "C120", "title": "The LC frontend's control gains do not depend on gm and fit the step response", "statement": "The argument gm of LCFrontend has no effect on the result. With an exact solver the gain of control m is the unique number for which the response to a unit drive of capacitor m, at the end of a clock period, comes closest in least squares to the response to a unit step at the input; the responses never vanish, so the quotient is defined; the gain of the first control equals the input gain 1/(Rin C), and its response then matches the step response exactly.", "quantifier": "all M >= 1, positive L, C, Rin, fc, all gm, all exact solvers", "why_tests_cant": "That an argument has no effect, that no parameters make the denominator vanish and that the fit is optimal are statements about all parameters.", "anchors": ["src/cbadc/circuit/lc_tank.py:LCFrontend", "src/cbadc/circuit/lc_tank.py:_exponential_decay"]}
{"id": "C121", "title": "The fixed-point FIR filter stays within one step per tap of the floating-point one", "statement": "A FIR filter with a fixed-point format can be constructed exactly when the floating-point filter with the same arguments can and none of its taps exceeds the largest representable number; otherwise ArithmeticError is raised. For 0/1 control signals each estimate differs from the floating-point estimate by at most one step of the format per tap and control, or the call raises ArithmeticError and the floating-point estimate reaches the largest number up to the same tolerance; if the magnitudes of the taps add up to at most the largest number, no call fails. This also holds with an offset.", "quantifier": "all formats, coefficient matrices, K1, K2, downsampling, control streams, call numbers", "why_tests_cant": "The error bound and the absence of overflow are statements about all coefficient values and all control sequences; the worst case is hit by single sequences of exponentially many.", "anchors": ["src/cbadc/digital_estimator/fir_estimator.py:FIRFilter.__init__", "src/cbadc/digital_estimator/fir_estimator.py:FIRFilter.__next__", "src/cbadc/utilities.py:FixedPoint"]}
{"id": "C122", "title": "The exported C headers and Rust modules hold the filter", "statement": "The file written by write_C_header or write_rust_module, read back as C or Rust, defines L, M, K1, K2, K3 and a nested array h of L x M x K3 numbers equal to the taps of the filter: exactly for a fixed-point filter, and for a floating-point filter so close that rounding each to the nearest double gives back the tap. The file extension is appended once. The numbers fit the declared types.", "quantifier": "all L, M, K2 >= 1, all K1, all integer taps, all taps that are doubles", "why_tests_cant": "That no coefficient is lost, reordered or rounded away in the text holds for all numbers, including those with large exponents; tests compare single files.", "anchors": ["src/cbadc/digital_estimator/fir_estimator.py:FIRFilter.write_C_header", "src/cbadc/digital_estimator/fir_estimator.py:FIRFilter.write_rust_module"]}
{"id": "C123", "title": "Impulse response and transfer function of a FIR filter describe its estimates", "statement": "The estimates of a FIR filter are the convolution of the control sequence with impulse_response(), plus the offset. fir_filter_transfer_function returns the frequencies i/(K3 Ts), i = 0 .. K3/2, and the frequency response of the filter at them.", "quantifier": "all filters, streams and call numbers; all taps, Ts, inputs and controls", "why_tests_cant": "A convolution identity and an identity of Fourier transforms over all taps and all sequences.", "anchors": ["src/cbadc/digital_estimator/fir_estimator.py:FIRFilter.impulse_response", "src/cbadc/digital_estimator/fir_estimator.py:FIRFilter.fir_filter_transfer_function"]}
{"id": "C124", "title": "number_of_filter_coefficients counts the non-zero taps", "statement": "The number reported for a FIR filter is the number of its taps different from zero.", "quantifier": "all filters", "why_tests_cant": "A counting identity for all tap values; the tests do not include negative taps.", "anchors": ["src/cbadc/digital_estimator/fir_estimator.py:FIRFilter.number_of_filter_coefficients"]}
{"id": "C125", "title": "A netlist carries every sub-circuit definition it needs exactly once", "statement": "SubCircuitElement.get_sub_circuit_definitions() returns the definition of the circuit itself first, the definition of every sub-circuit that occurs in it at any depth, no other text, and no text twice.", "quantifier": "for every tree of circuit elements and every rendering of definitions", "why_tests_cant": "The trees are unbounded in depth and width; a test compares the list for a handful of circuits.", "anchors": ["src/cbadc/circuit/__init__.py: SubCircuitElement.get_sub_circuit_definitions"]}
{"id": "C126", "title": "The check of sub-circuit names rejects ambiguous hierarchies", "statement": "check_subckt_names raises ValueError exactly if a sub-circuit name is used for more than one definition or for a circuit and one inside it, whatever was checked before.", "quantifier": "for every tree of circuit elements and every history of checks", "why_tests_cant": "Trees are unbounded; whether a check may rely on the lists stored by an earlier one depends on the whole history.", "anchors": ["src/cbadc/circuit/__init__.py: SubCircuitElement.check_subckt_names, SubCircuitElement._check_subckt_names"]}
{"id": "C127", "title": "Every device in a netlist finds the model it was given", "statement": "The set of device models written with a circuit has a model of the kind and name of every device in it, no two of the same kind and name, none without a device, and the model a device refers to has the parameters the device was created with.", "quantifier": "for every tree of circuit elements; for every digital control and every dither control", "why_tests_cant": "Whether two devices share a model name with different parameters depends on the whole hierarchy; a test that looks for a model line by name finds one.", "anchors": ["src/cbadc/circuit/__init__.py: DeviceModel.__eq__, CircuitElement._get_model_set, SubCircuitElement._get_model_set", "src/cbadc/circuit/digital_control.py: DigitalControl, DitherControl, MultiInputComparator", "src/cbadc/circuit/components/comparator.py: DifferentialOutputClockedComparator", "src/cbadc/circuit/models/comparator.py: ADC_Bridge_Model, DAC_Bridge_Model, D_Flip_Flop_Model"]}
{"id": "C128", "title": "A clocked comparator holds the sign of its input at the clock edge", "statement": "In every solution of the netlist of a clocked comparator, after a rising edge of CLK (relative to VCM) and until the next one, up to the delays of the devices, the outputs are high and low if IN was above VCM by the upper threshold at the edge, and low and high if it was below by the lower threshold. In a digital control circuit with VCM at the middle of the output levels, every control is therefore the sign of its entry of the control observation at the edge.", "quantifier": "for all signals at the terminals, thresholds, delays and levels, and for all systems and controls", "why_tests_cant": "A test compares the text of a netlist; whether that text describes a comparator is a statement about all its solutions.", "anchors": ["src/cbadc/circuit/components/comparator.py: DifferentialOutputClockedComparator, ClockedComparator, ADCBridgeRelative, D_FLIP_FLOP, DAC_Bridge", "src/cbadc/circuit/digital_control.py: DigitalControl, MultiInputComparator"]}
{"id": "C129", "title": "A multi-phase control circuit decides every control at its own phase of the clock", "statement": "In every solution of the netlist of a multi-phase digital control, the comparator of a control compares the corresponding entry of control_observation and is clocked by CLK delayed by the start t0 of that control's impulse response; its control is therefore decided, with the sign of that entry, at the edges of the clock shifted by t0 and held until its own next edge. The circuit can be built for every digital control whose impulse responses start at different times.", "quantifier": "for all analog systems, starts of impulse responses, clock signals and solutions of the netlist", "why_tests_cant": "A test compares the text of one netlist; that all solutions of it decide at the right phases quantifies over signals and systems.", "anchors": ["src/cbadc/circuit/digital_control.py: MultiPhaseDigitalControl, DitherControl._generate_digital_control", "src/cbadc/circuit/components/analog_delay.py: AnalogDelay", "src/cbadc/digital_control/digital_control.py: DigitalControl"]}
{"id": "C130", "title": "A netlist can be included as an element exactly when it is one readable definition, and printed definitions can be read back", "statement": "NetlistElement accepts a text (not ending in .txt, .net or .cir) exactly when its first line is .subckt followed by a name and terminals with different names (case ignored), no later line is blank and one later line begins with .ends; the element has that name in lower case, those terminals in upper case and in order, and its definition is the text unchanged. Other texts raise the IndexError or ValueError of the first failed condition. The definition printed for a sub-circuit is accepted and gives back its name and terminals.", "quantifier": "for all texts, and for all names, terminals and elements of sub-circuits", "why_tests_cant": "The texts are unbounded; the acceptance is an equivalence over all of them, and the round trip is over all sub-circuits.", "anchors": ["src/cbadc/circuit/__init__.py: NetlistElement, SubCircuitElement.get_sub_circuit_definitions", "src/cbadc/circuit/templates/ngspice/sub_circuit_definition.cir.j2"]}
{"id": "C131", "title": "The random controls of a dither circuit follow the pseudo-random sequence of the dither control", "statement": "A reference source is accepted exactly when every entry of its sequence is 0, 1/2 or 1 (ValueError otherwise) and its file then holds line k = (k T, the states of row k), for as long as the source lives. In every solution of the netlist of a dither control, random control m is positive after a clock edge in the time of row k if entry m of that row is one and negative if it is zero, until the next edge; this is the value that the simulated dither control draws at its update k+1.", "quantifier": "for all sequences, files present before, later creations and deletions of sources, numbers of controls, clock signals and solutions of the netlist", "why_tests_cant": "The files depend on the history of all sources created in the directory, and the agreement of circuit and simulation is over all sequences, times and signals.", "anchors": ["src/cbadc/circuit/components/reference_source.py: ReferenceSource", "src/cbadc/circuit/digital_control.py: DitherControl", "src/cbadc/digital_control/dither_control.py: DitherControl"]}
{"id": "C132", "title": "filter_lag() tells which sample an estimate belongs to, before and after warm_up()", "statement": "After any sequence of next() and warm_up() calls among which n calls of next(), the next estimate of a FIR, IIR, batch or parallel estimator without downsampling is the estimate of sample n - filter_lag() - 1, with the lag reported at that moment. warm_up() takes exactly max(lag, 0) estimates and leaves the lag min(lag, 0); an exception of the estimator is passed on with the lag reduced by the estimates taken. Refuted for warm_up(samples) with positive samples, which leaves the lag unchanged, and for estimators with downsampling.", "quantifier": "for all filters, control signals, lengths and sequences of next() and warm_up()", "why_tests_cant": "The tests align two estimators for a few lengths; the statement is over all histories of calls and all control signals.", "anchors": ["src/cbadc/digital_estimator/batch_estimator.py: BatchEstimator.filter_lag, BatchEstimator.warm_up", "src/cbadc/digital_estimator/fir_estimator.py: FIRFilter", "src/cbadc/digital_estimator/iir_estimator.py: IIRFilter", "src/cbadc/digital_estimator/parallel_digital_estimator.py: ParallelEstimator"]}
{"id": "C133", "title": "demodulate() turns every estimate back by the phase of the modulation", "statement": "demodulate() takes one estimate and turns channels j and j + L/2 of it by minus the modulation frequency times the number of estimates taken before; as a complex number the pair is multiplied by exp(-i n f). For an odd number of channels it raises Exception without taking an estimate, and an exception of the estimator is passed on. The estimate of a given sample is hence turned by the same angle in every estimator only up to a constant depending on the estimator: the batch estimator turns sample q by q f, the FIR filter by (q + K2 - 1) f.", "quantifier": "for all even numbers of channels, frequencies, estimators and numbers of estimates", "why_tests_cant": "The tests demodulate single traces; that the turned pairs, the counter and the error branch agree holds for all channels, estimators and histories.", "anchors": ["src/cbadc/digital_estimator/batch_estimator.py: BatchEstimator.demodulate, _rotation_matrix", "src/cbadc/digital_estimator/fir_estimator.py: FIRFilter.__next__"]}
{"id": "C134", "title": "Noise with the powers of white_noise_sensitivities() meets the target SNR", "statement": "max_transfer_function_peak(BW) returns for each input and state the largest squared gain over a thousand frequencies in geometric progression from BW[0] to BW[1]. With one input, noise of the powers returned by white_noise_sensitivities() reaches the estimate in equal shares from all states, and with spectrum=True the density times the width of the band is that power; a call raises ValueError exactly if a peak search starts or ends at zero or if the numbers of inputs and states differ and neither is one. Refuted: the total is input_power/target_snr times the largest gain, not input_power/target_snr, and with several inputs the shares are computed with the largest gain of another input.", "quantifier": "for all transfer functions, bands, targets and numbers of inputs and states", "why_tests_cant": "The tests only print the returned powers; that they meet the target is a statement over all systems and frequencies of the band.", "anchors": ["src/cbadc/digital_estimator/batch_estimator.py: BatchEstimator.white_noise_balance, BatchEstimator.white_noise_sensitivities, BatchEstimator.max_transfer_function_peak"]}
{"id": "C135", "title": "max_harmonic_estimate() bounds the harmonics of the states over the band", "statement": "The amplitudes returned by max_harmonic_estimate(BW, SFDR) give every state and input the same share of the estimate (amplitude times the largest gain over the evaluated frequencies), and the largest sum of the amplitudes over the inputs is 10^(-SFDR/10). Refuted: the evaluated frequencies are those of the band raised to the power ln 10, so that for bands above one radian per second they lie beyond the band, and with one input the amplitudes of the states do not sum to 10^(-SFDR/10).", "quantifier": "for all transfer functions, bands and values of SFDR", "why_tests_cant": "No test calls the function, and the claim is over all systems and bands.", "anchors": ["src/cbadc/digital_estimator/batch_estimator.py: BatchEstimator.max_harmonic_estimate", "src/cbadc/fom.py: snr_from_dB"]}
{"id": "C136", "title": "Interpolated signals pass through their samples", "statement": "BandLimitedSignal and RaisedCosine have at time k T the value of sample k mod n, for every number of interpolation terms; their values are linear in the samples; with fewer than four terms they are the zero-order hold of the samples. Refuted: between the samples the value is not the interpolation of the samples with the signal's impulse response.", "quantifier": "for all samples, periods, numbers of terms, roll-offs without a pole at a sample and times k T with k >= 0", "why_tests_cant": "No test evaluates these signals, and the statement is over all sample vectors and times.", "anchors": ["src/cbadc/analog_signal/zero_order_hold.py: BandLimitedSignal.evaluate, RaisedCosine.evaluate"]}
{"id": "C137", "title": "A recursive adaptive filter is trained on the equation it predicts with", "statement": "AdaptiveIIRFilter.lstsq(x, y, delay) chooses forward coefficients, feedback coefficients and offset with the least squared error of y[n] = forward part of x[n+delay], ..., x[n+delay+K-1] + offset + feedback part of y[n-K], ..., y[n-1]; a reference that obeys such an equation is then predicted from x[delay:] at all times once it is for the first K, and lms leaves such a filter alone, as rls leaves its coefficients and offset. With a pair (lo, hi) of delays the first delay with the least error is used; negative delays, other sequences, empty ranges and the argument shuffle are rejected.", "quantifier": "for all inputs, references, lengths, numbers of channels and taps, delays, ranges and exact least squares solvers", "why_tests_cant": "Optimality is over all coefficient choices, and the alignment of windows, delay and feedback must hold for every length and delay.", "anchors": ["src/cbadc/digital_estimator/adaptive_filter.py: AdaptiveIIRFilter._reshape_data_for_FIR_filter_training", "src/cbadc/digital_estimator/adaptive_filter.py: AdaptiveIIRFilter.lstsq", "src/cbadc/digital_estimator/adaptive_filter.py: AdaptiveIIRFilter.lms", "src/cbadc/digital_estimator/adaptive_filter.py: AdaptiveIIRFilter.rls", "src/cbadc/digital_estimator/adaptive_filter.py: AdaptiveIIRFilter.predict"]}
{"id": "C138", "title": "Solver fallback for the Riccati equation", "statement": "The Riccati matrices behind the filter coefficients are symmetric solutions of the continuous algebraic Riccati equation whichever of the available solvers (symbolic, SciPy, brute force) had to be used; an exception of a solver for which no fallback is foreseen reaches the caller; and the brute force solver, the last resort, improves on the numerical guess it starts from.", "quantifier": "for all system matrices, all outcomes (results or exceptions) of the symbolic solver, of SciPy and of the numerical guess, and all time limits", "why_tests_cant": "Which solver is used depends on failures inside third-party libraries that a test cannot provoke at will, and the brute force loop always ends with a plausible matrix: only a bound on the sum of all its steps shows that it cannot move away from its start.", "anchors": ["src/cbadc/digital_estimator/_filter_coefficients.py:care", "src/cbadc/digital_estimator/_filter_coefficients.py:bruteForceCare", "src/cbadc/digital_estimator/_filter_coefficients.py:_numpy_care"]}
{"id": "C139", "title": "Verilog-AMS modules behave as the ngspice models", "statement": "A component printed for Spectre, as an instance line and a Verilog-AMS module, drives the same node with the same voltage as the component printed for ngspice: a summer drives its output node to the output gain times the weighted sum of its inputs (each with its offset) plus the output offset, an integrator drives its output to the integral of gain times input plus offset within its limits, and a clocked comparator outputs the low, high or undefined level according to its two thresholds.", "quantifier": "for all numbers of inputs, gains, offsets (of either sign, zero included), node names and input signals", "why_tests_cant": "No simulator for Verilog-AMS is available to the tests, which at most compare the printed text with a stored copy; whether the text means the right thing for every sign of every parameter needs the semantics of the expressions.", "anchors": ["src/cbadc/circuit/models/summer.py:SummerModel", "src/cbadc/circuit/models/integrator.py:IntegratorModel", "src/cbadc/circuit/models/comparator.py:ClockedComparatorModel", "src/cbadc/circuit/components/summer.py:Summer", "src/cbadc/circuit/components/summer.py:DifferentialSummer", "src/cbadc/circuit/templates/verilog_ams/summer.vams.j2", "src/cbadc/circuit/templates/verilog_ams/integrator.vams.j2", "src/cbadc/circuit/templates/verilog_ams/clocked_comparator.vams.j2"]}
{"id": "C140", "title": "Open terminals of a hierarchy are found and can be led upstream", "statement": "check_connections() of a circuit warns of exactly those terminals, at any depth of the hierarchy, that are neither connected nor marked as hidden; connect_upstream() leaves connected terminals alone and gives every unconnected terminal of an element a new terminal of the enclosing sub-circuit.", "quantifier": "for all hierarchies of circuits of any depth and all sets of connections", "why_tests_cant": "Hierarchies can be nested arbitrarily, and a terminal may be open at any level; tests check the netlists of a few fully connected circuits.", "anchors": ["src/cbadc/circuit/__init__.py:SubCircuitElement.check_connections", "src/cbadc/circuit/__init__.py:SubCircuitElement.connect_upstream"]}
{"id": "C141", "title": "A test bench wires supplies, clock, inputs and observer to the frontend", "statement": "Every test bench class (state space, op-amp, Gm-C, LC) can be built for sinusoidal inputs, one or more for each input of the analog system; other signals give TypeError, too few inputs ValueError. In its netlist the frontend is instantiated with one node per terminal in the order of its terminals: ground for VSS, and otherwise the node of the test bench with the name of the terminal, so that the supplies, the clock and source l arrive at the terminals VDD, VCM, CLK, INl_P and INl_N and the controls leave at OUTm_P and OUTm_N. The observer is clocked by CLK and reads OUT0_P, OUT1_P, ... This does not depend on the class of the test bench, in particular not on whether the frontend is added to the test bench once or twice.", "quantifier": "all classes of test benches, all numbers of input signals, of inputs and of controls of the analog system", "why_tests_cant": "The netlists of the test benches are not compared by any test (the tests that build them are commented out), and the ports depend on the history of the calls to add and connect for every number of inputs and controls.", "anchors": ["src/cbadc/circuit/testbench.py:TestBench", "src/cbadc/circuit/testbench.py:StateSpaceTestBench", "src/cbadc/circuit/testbench.py:OpAmpTestBench", "src/cbadc/circuit/testbench.py:OTATestBench", "src/cbadc/circuit/testbench.py:LCTestBench", "src/cbadc/circuit/__init__.py:SubCircuitElement.__setattr__", "src/cbadc/circuit/__init__.py:SubCircuitElement.connect"]}
{"id": "C142", "title": "What is lost in a conversion depends on the observed outputs, not on the decisions", "statement": "A converter is run over any number of periods, with any input and any control decisions (ideal or disturbed comparators). With exact filter coefficients, the estimates are samples of a signal such that the conversion error, sent through the analog system without any controls, only produces the difference of two outputs, and the energy of the conversion error plus the energy of that difference over eta2 is the cost of the run minus the cost of the estimate. So if the observed outputs and the input stay bounded, the mean power of the error behind the analog system is at most eta2 times the input power plus the output power, up to a term of the first and last state, for every horizon. The estimates of two runs differ by a signal that costs no more than the difference of inputs and observed outputs; two runs with the same input, the same observed outputs and the same end states give the same estimates although their decisions differ.", "quantifier": "all analog systems and filters with exact coefficients, all waveforms that start at the updates, all inputs, decisions and horizons", "why_tests_cant": "Tests simulate a few converters with one input each and look at a spectrum; the statement is about all inputs, all decision sequences and all horizons, and about exact cancellation of the decisions.", "anchors": ["src/cbadc/digital_estimator/_filter_coefficients.py:compute_filter_coefficients", "src/cbadc/digital_estimator/batch_estimator.py:BatchEstimator", "src/cbadc/digital_control/digital_control.py:DigitalControl.control_contribution"]}
{"id": "C143", "title": "Simulated and then estimated, a bounded input comes back up to a bounded mean error", "statement": "Take ChainOfIntegrators (or LeapFrog) with controls that dominate the couplings, |beta_n| (+ |alpha_n|) <= |kappa_n|, a clock period with |kappa_n| T <= 1/2 and the default DigitalControl; simulate it from states in [-1, 1] with any continuous input bounded by 1, and feed the control signals of the simulation to a batch estimator with exact filter coefficients. Then for every horizon of K clock periods the estimates are the samples, at the clock edges, of a signal u_hat such that input minus u_hat, sent through the analog system without any controls, has outputs of energy at most K T (eta2 + N) + eta2 c, where c only depends on the filters. Value number n that the batch estimator returns is the sample number n of such a signal for the horizon of the control vectors read so far.", "quantifier": "all numbers of integrators, all gains within the conditions, all continuous bounded inputs, all simulations from the unit box, all horizons, batch sizes and look-aheads", "why_tests_cant": "Tests simulate one or two converters with one sinusoid for a fixed length and compare spectra by eye; the claim is about every input and an unlimited horizon, and needs the simulator, the control, the coefficients and the estimator together.", "anchors": ["src/cbadc/analog_system/chain_of_integrators.py:ChainOfIntegrators", "src/cbadc/analog_system/leap_frog.py:LeapFrog", "src/cbadc/digital_control/digital_control.py:DigitalControl", "src/cbadc/simulator/numerical_simulator.py:FullSimulator", "src/cbadc/digital_estimator/_filter_coefficients.py:compute_filter_coefficients", "src/cbadc/digital_estimator/batch_estimator.py:BatchEstimator"]}
{"id": "C144", "title": "The filters of chains and leap-frogs are unique, stable and decay, whichever Riccati solver finds them", "statement": "All states of ChainOfIntegrators and of LeapFrog can be reached from the input exactly if no gain beta_n is zero, and all states are seen in the outputs. For every such analog system and eta2 > 0, whichever solver finds them and whether or not the Hamiltonian matrix has a basis of eigenvectors: a stabilising solution of the Riccati equation is unique and positive definite, the forward and the backward filter are stable and the powers of Af and Ab tend to zero, so control signals far away do not influence an estimate. The bound C143 on the error of a simulated and estimated chain holds for these filters without further conditions on them.", "quantifier": "all gains, all couplings, all numbers of integrators, all eta2 > 0, all stabilising solutions (defective closed loops included), all simulations as in C143", "why_tests_cant": "Tests compute the filters of a few chains in floating point; uniqueness, definiteness and stability for all gains and for defective matrices are statements about all real matrices.", "anchors": ["src/cbadc/analog_system/chain_of_integrators.py:ChainOfIntegrators", "src/cbadc/analog_system/leap_frog.py:LeapFrog", "src/cbadc/digital_estimator/_filter_coefficients.py:care", "src/cbadc/digital_estimator/_filter_coefficients.py:compute_filter_coefficients"]}
{"id": "C145", "title": "Longer filters approach one ideal estimate geometrically, with every estimator", "statement": "For filter coefficients whose powers vanish (C144: all chains and leap-frogs with non-zero gains) there is, for every stream of control vectors, one ideal estimate per sample such that the FIR filter is off by at most C (r^K1 + r^K2), the IIR filter by at most C r^K2 and the batch estimator by at most C r^K2, for every sample and every choice of K1 and K2; the constants C and r < 1 depend on the coefficients only. So the estimators agree on every sample up to a bound that vanishes geometrically with the filter lengths, uniformly in time and over all streams.", "quantifier": "all coefficients with vanishing powers, all control streams with values in [0, 1], all lengths and batch sizes, all samples", "why_tests_cant": "Tests compare estimators for a few lengths on one stream with a tolerance; the claim bounds the difference for all streams, all samples and all lengths with one pair of constants.", "anchors": ["src/cbadc/digital_estimator/fir_estimator.py:FIRFilter", "src/cbadc/digital_estimator/iir_estimator.py:IIRFilter", "src/cbadc/digital_estimator/batch_estimator.py:BatchEstimator"]}
{"id": "C146", "title": "What an adaptive filter reports about itself is what its predictions do", "statement": "impulse_response() of an adaptive filter is its answer to a unit impulse, and transfer_function(number_of_points) returns the requested uniformly spaced frequencies together with the factors (magnitude and phase) by which predict changes cosines of these frequencies, for the recursive filter the factors of its steady answers.", "quantifier": "all coefficients, numbers of taps and channels, numbers of points, frequencies, phases and signals", "why_tests_cant": "The response to every sinusoid of every phase and every sample is claimed, for every set of coefficients; tests compare array shapes.", "anchors": ["src/cbadc/digital_estimator/adaptive_filter.py:AdaptiveFIRFilter.impulse_response", "src/cbadc/digital_estimator/adaptive_filter.py:AdaptiveFIRFilter.transfer_function", "src/cbadc/digital_estimator/adaptive_filter.py:AdaptiveIIRFilter.transfer_function"]}
{"id": "C147", "title": "The filter coefficients exist and are determined by the converter", "statement": "For an analog system whose states can all be reached from its inputs and all be seen in its outputs, every eta2 > 0, every clock period and every combination of the waveforms of the library, the two Riccati equations behind compute_filter_coefficients each have exactly one stabilising solution, it is positive definite, and there is exactly one set of coefficients Af, Ab, Bf, Bb, W: two exact computations with stabilising solutions give the same numbers. Every chain of integrators and every leap-frog structure without a zero gain beta_n is such a system, so an estimator can be built for it whatever eta2; for a stable chain with an input within its range its estimates have an error of bounded energy per period, without any assumption on the numbers computed.", "quantifier": "all analog systems that are reachable and observable, all eta2 > 0, all periods, all waveforms of the library (step, non-return-to-zero pulse, RC discharge) with any start times and amplitudes, all chains and leap-frog structures without a zero gain", "why_tests_cant": "A test computes coefficients for some systems; that the equations have a solution for every system, and no second one, is an existence statement over all real matrices.", "anchors": ["src/cbadc/digital_estimator/_filter_coefficients.py:compute_filter_coefficients", "src/cbadc/digital_estimator/_filter_coefficients.py:care", "src/cbadc/digital_estimator/_filter_coefficients.py:_numerical_solver", "src/cbadc/analog_signal/impulse_responses.py", "src/cbadc/analog_system/chain_of_integrators.py:ChainOfIntegrators", "src/cbadc/analog_system/leap_frog.py:LeapFrog"]}
{"id": "C148", "title": "A simulation runs for ever exactly if the set-up fits together", "statement": "The full simulator, given continuous input signals (or none) and any waveforms of the library, can carry out every call of next() from every state, for ever, exactly if the analog system has a control input matrix with one column for each control and a control observation matrix with at least one row for each control: then the differential equation of every period has a solution, and otherwise no call succeeds. Every chain of integrators and every leap-frog structure fits a control with one control per integrator. So for a chain with strong enough control the error bound of C143 holds for the simulation from every start within the unit box, without assuming that a simulation or the filters exist.", "quantifier": "all analog systems, all controls with waveforms of the library, any start times and delays, all continuous inputs, all states, any number of periods", "why_tests_cant": "A test simulates a finite time from a few states; that no reachable or unreachable state is one from which the simulation cannot go on is a statement about all of them.", "anchors": ["src/cbadc/simulator/numerical_simulator.py:FullSimulator.__next__", "src/cbadc/digital_control/digital_control.py:DigitalControl.control_contribution", "src/cbadc/analog_system/analog_system.py:AnalogSystem.control_observation", "src/cbadc/analog_signal/impulse_responses.py"]}
{"id": "C149", "title": "The converter makes no DC error if its first integrator does not leak", "statement": "For a simulated converter with the default control waveforms and the exact filter coefficients: if the analog system has infinite gain at DC in some direction (w A = 0, for a chain of integrators rho_1 = 0) and its states stay bounded, then the sum of the estimates over any number of periods differs from the sum of the period means of the input, both seen through w B, by no more than a constant that depends on neither input, start, decisions nor horizon. So the mean of the first K values of the batch estimator converges to the mean of the input like 1/K, up to a term that vanishes geometrically with the look-ahead K2; for the FIR filter the same with its two lengths. For a chain, and for a leap-frog structure of odd order whose states number 1, 3, 5, ... do not leak, under the conditions of C20 this holds for every input within the unit interval. It is false if the first integrator leaks: then a constant input 1 can lead to estimates with a mean of at most 8/9.", "quantifier": "all analog systems with such a direction, all continuous inputs, all starts with bounded trajectories, all horizons, all eta2 > 0, all filter lengths", "why_tests_cant": "A test compares means over a finite record of one input, with a tolerance; whether the remaining difference is an offset or vanishes, for every input and uniformly in the number of samples, cannot be read off a record.", "anchors": ["src/cbadc/simulator/numerical_simulator.py:FullSimulator.__next__", "src/cbadc/digital_estimator/_filter_coefficients.py:compute_filter_coefficients", "src/cbadc/digital_estimator/batch_estimator.py:BatchEstimator.__next__", "src/cbadc/digital_estimator/fir_estimator.py:FIRFilter.__next__", "src/cbadc/analog_system/chain_of_integrators.py:ChainOfIntegrators"]}
{"id": "C150", "title": "The unit of time does not matter", "statement": "Multiplying all rates of a converter by r > 0 and dividing all its times by r changes nothing but the time axis: with the inputs running r times as fast, the simulator produces the same states, decisions and control signals at times divided by r, and the filter coefficients (also with mid_point=True) are the same numbers, so that every estimator gives the same estimates. ChainOfIntegrators and LeapFrog with all gains times r are such converters, and get_chain_of_integrator and get_leap_frog called for r times the bandwidth (r times the losses, 1/r of the period) return such a converter, except for the transition time of the clock, which is fixed: it has no influence on controls that decide at the start of the period, and the clock is refused (exception) exactly if half the new period is shorter than it.", "quantifier": "all r > 0, all analog systems, controls, waveforms, inputs, simulations, eta2, all synthesis specifications", "why_tests_cant": "Scaling invariance relates infinitely many pairs of converters and all their executions; a test compares one pair over a short record within tolerances.", "anchors": ["src/cbadc/simulator/numerical_simulator.py:FullSimulator.__next__", "src/cbadc/digital_control/digital_control.py:DigitalControl", "src/cbadc/digital_estimator/_filter_coefficients.py:compute_filter_coefficients", "src/cbadc/synthesis/chain_of_integrators.py:get_chain_of_integrator", "src/cbadc/synthesis/leap_frog.py:get_leap_frog"]}
{"id": "C151", "title": "The choice of state variables does not matter", "statement": "Describing the same analog system by other state variables x' = S x (A, B, CT, Gamma, Gamma_tildeT transformed accordingly) changes nothing that can be observed: simulations correspond state by state with the same decisions and control signals, solutions of the Riccati equations become S V S^T, the filter coefficients become S Af S^-1, S Ab S^-1, S Bf, S Bb, WT S^-1, FIR, IIR and batch estimators return the same estimates and the same exceptions, and the transfer function matrix and eta2 are the same. More generally any linear map between two systems that respects their equations, also one that forgets states, maps simulations to simulations with the same decisions.", "quantifier": "all invertible S, all analog systems, controls, inputs, simulations, eta2, control signals", "why_tests_cant": "The statement relates every converter to infinitely many equivalent ones over all executions; a test compares one pair over a short record within tolerances.", "anchors": ["src/cbadc/analog_system/analog_system.py:AnalogSystem", "src/cbadc/simulator/numerical_simulator.py:FullSimulator.__next__", "src/cbadc/digital_estimator/_filter_coefficients.py:compute_filter_coefficients", "src/cbadc/digital_estimator/fir_estimator.py:FIRFilter", "src/cbadc/digital_estimator/iir_estimator.py:IIRFilter", "src/cbadc/digital_estimator/batch_estimator.py:BatchEstimator"]}
{"id": "C152", "title": "The unit of the input does not matter", "statement": "Measuring the inputs of a converter in a unit b times as large (B, D and B_tilde times b, all input signals divided by b) changes nothing but the unit of the estimates: the simulations are the same ones with the same decisions, eta2 of the analog system at a bandwidth is b^2 times as large, with eta2 taken so the Riccati solutions are b^2 times as large and the filter coefficients (also with mid_point=True) are the same except that WT is divided by b, and FIR, IIR and batch estimators return the estimates divided by b and raise the same exceptions (the offset of an FIR filter has to be given in the new unit as well).", "quantifier": "all b != 0 (also negative), all analog systems, controls, inputs, simulations, eta2, control signals", "why_tests_cant": "The statement relates every converter to infinitely many others over all executions; a test compares one pair over a short record within tolerances.", "anchors": ["src/cbadc/analog_system/analog_system.py:AnalogSystem.eta2", "src/cbadc/simulator/numerical_simulator.py:FullSimulator.__next__", "src/cbadc/digital_estimator/_filter_coefficients.py:compute_filter_coefficients", "src/cbadc/digital_estimator/fir_estimator.py:FIRFilter", "src/cbadc/digital_estimator/iir_estimator.py:IIRFilter", "src/cbadc/digital_estimator/batch_estimator.py:BatchEstimator"]}
{"id": "C153", "title": "Converters are causal and time-invariant", "statement": "Two simulations of the same converter that start alike and whose inputs agree up to a clock edge have the same states up to that edge and the same decisions up to and including the one made there, whatever their inputs do later; if the inputs do not feed through to the comparators (B_tilde = 0), the decision does not even depend on the input at the edge itself. Hence the n-th estimate of an FIR filter with downsampling ds depends on the inputs up to clock edge ds(n+1)-1 only, that of an IIR filter up to edge ds n, and that of a batch estimator up to the end of its batch and look-ahead. A simulation that starts later, with inputs that are later by as much, is the same simulation.", "quantifier": "all analog systems, controls, waveforms, pairs of inputs, simulations, delays, filter lengths and sample numbers", "why_tests_cant": "Independence of everything that happens later quantifies over all continuations of the input; a test tries a few.", "anchors": ["src/cbadc/simulator/numerical_simulator.py:FullSimulator.__next__", "src/cbadc/analog_system/analog_system.py:AnalogSystem.control_observation", "src/cbadc/digital_control/digital_control.py:DigitalControl.control_update", "src/cbadc/digital_estimator/fir_estimator.py:FIRFilter.__next__", "src/cbadc/digital_estimator/iir_estimator.py:IIRFilter.__next__", "src/cbadc/digital_estimator/batch_estimator.py:BatchEstimator.__next__"]}
{"id": "C154", "title": "Simulated thermal noise has the covariance that was asked for and changes nothing else", "statement": "A simulator constructed with state_noise_covariance_matrix=S adds, at the end of every control period, a random vector with mean zero and covariance S to the states; vectors of different periods are uncorrelated and nothing else about the simulation changes: without the argument the simulation is the noise-free one, both simulators add the same noise for the same seed, every possible covariance matrix is accepted, and bounded noise leaves the states of a converter with enough control strength in their range.", "quantifier": "for all analog systems, controls, inputs, covariance matrices, clock periods, seeds (sequences of normal draws) and numbers of periods", "why_tests_cant": "The existing test prints a variance without comparing it with anything; a covariance is a property of a distribution, not of a finite run, and boundedness concerns all noise sequences and all times.", "anchors": ["src/cbadc/simulator/_base_simulator.py:_BaseSimulator.__init__", "src/cbadc/simulator/numerical_simulator.py:FullSimulator._ordinary_differential_solution", "src/cbadc/simulator/numerical_simulator.py:PreComputedControlSignalsSimulator._ordinary_differential_solution"]}
{"id": "C155", "title": "Replacing an element of a sub-circuit keeps its wiring", "statement": "Assigning a circuit element to an attribute of a sub-circuit, or adding one whose instance name is in use, replaces the element of that name: the new element takes its place in the netlist, each of its terminals is on the net of the old terminal of the same name, all other terminals share nets exactly as before, and a terminal without a counterpart stays open. ValueError is raised exactly if the new element lacks a terminal name of the old one; a new attribute must carry the instance name of the element. If the nets of the old element are named after its terminals, the netlist is the one before with the device replaced. This is false for the nodes of the netlist in general: the nets are renamed after the terminals of the element, so that two different nets may be printed as one node and short a resistor between them. And it is false for resistors, capacitors and inductors: their terminals are named after a running number, so that replacing one by another always raises ValueError.", "quantifier": "all sub-circuits built by add and connect, all elements, all names", "why_tests_cant": "A test replaces one element in one circuit and looks at the lines of the netlist; that no other net is touched, and which names lead to a clash, concerns all circuits.", "anchors": ["src/cbadc/circuit/__init__.py:SubCircuitElement.__setattr__", "src/cbadc/circuit/__init__.py:SubCircuitElement.add", "src/cbadc/circuit/__init__.py:SubCircuitElement.connect", "src/cbadc/circuit/__init__.py:CircuitElement.__getitem__", "src/cbadc/circuit/__init__.py:SubCircuitElement.__getattr__"]}
{"id": "C156", "title": "The numbering of inputs and controls does not matter", "statement": "Renumbering the inputs and the controls of a converter (columns of B, D, B_tilde and of Gamma, rows of Gamma_tildeT, B_tilde and A_tilde, impulse responses, offsets and input signals) changes nothing but the numbering: the state trajectories of simulations are the same and the control signals renumbered, the Riccati equations are the same, every backend, with and without mid_point, returns the same Af and Ab and renumbered columns of Bf and Bb and rows of WT, FIR, IIR and batch estimators return the renumbered estimates or raise the same exceptions, and eta2 is the same. The renumbered digital control can be constructed exactly if the starting times of the impulse responses are still in non-decreasing order.", "quantifier": "all permutations, all analog systems, controls, inputs, simulations, eta2, backends, control signals", "why_tests_cant": "The statement relates every converter to all its renumberings over all executions; a test compares one pair over a short record within tolerances.", "anchors": ["src/cbadc/analog_system/analog_system.py:AnalogSystem", "src/cbadc/digital_control/digital_control.py:DigitalControl", "src/cbadc/simulator/numerical_simulator.py:FullSimulator.__next__", "src/cbadc/digital_estimator/_filter_coefficients.py:compute_filter_coefficients", "src/cbadc/digital_estimator/fir_estimator.py:FIRFilter", "src/cbadc/digital_estimator/iir_estimator.py:IIRFilter", "src/cbadc/digital_estimator/batch_estimator.py:BatchEstimator"]}
{"id": "C157", "title": "A printed component is read as the component it is", "statement": "get_ngspice of every component (resistors, capacitors, inductors, constant, pulse and sine voltage sources, OTAs, VCVSs, voltage buffers, MOSFETs, integrators, summers, analog-to-digital and digital-to-analog bridges, flip-flops, reference sources, observers, delays, sub-circuit instances) returns a text which a reader of the ngspice syntax understands as exactly one element: of the type of the component, with its name, between the nets at its terminals in the order of the terminals, and with the values given to the constructor. The definition of a sub-circuit is read as its name, its terminals and its elements in the order in which they were added, and the line of a device model as its name, type and parameters. Components are accepted exactly if their name is not empty, gains are numbers and sub-circuits are named; otherwise TypeError or ValueError is raised. It is false that names are told apart ('1' and 'R1' are printed alike), that parameters of sub-circuits are printed (printing raises ValueError or tears the key apart), that comments have no effect (a comment with a line break inserts an element), and that the period of a pulse source is the one printed for Spectre.", "quantifier": "all components, names, values, models, nets, comments", "why_tests_cant": "A test compares a few printed lines with strings written by hand, which says nothing about other names, values and numbers of terminals, or about whether the lines mean the circuit.", "anchors": ["src/cbadc/circuit/components/passives.py:Resistor", "src/cbadc/circuit/components/sources.py:PulseVoltageSource.get_ngspice", "src/cbadc/circuit/components/summer.py:Summer.get_ngspice", "src/cbadc/circuit/__init__.py:SubCircuitElement.get_ngspice", "src/cbadc/circuit/__init__.py:DeviceModel.get_ngspice"]}
{"id": "C158", "title": "An estimator that is handed another control signal", "statement": "Calling an estimator with a control signal (`estimator(control_signal)`, `set_iterator`) changes where the following estimates are read from and nothing else: the estimates and exceptions that follow are those of an estimator whose single control signal is what had been read of the first one followed by the second one; estimates already computed are delivered first. A filter with finite window gives the estimates of a new filter as soon as the window is filled from the new signal; the IIR filter differs from a new one by the exponentially weighted contribution of the vectors of the first signal. A new signal restarts an estimator whose first signal has ended or whose number of iterations is used up. Before any signal is set, iterating raises.", "quantifier": "All coefficients, look-backs, look-aheads, down-sampling factors and limits, all pairs of control signals including ones that raise, any number of calls before and after, from any internal state; FIR, IIR, batch and parallel estimators.", "why_tests_cant": "The effect depends on the state left behind by an arbitrary history; tests use every estimator object for one signal.", "anchors": ["src/cbadc/digital_estimator/batch_estimator.py:BatchEstimator.set_iterator", "src/cbadc/digital_estimator/batch_estimator.py:BatchEstimator.__call__", "src/cbadc/digital_estimator/batch_estimator.py:BatchEstimator.__next__", "src/cbadc/digital_estimator/fir_estimator.py:FIRFilter.__next__", "src/cbadc/digital_estimator/iir_estimator.py:IIRFilter.__next__", "src/cbadc/digital_estimator/parallel_digital_estimator.py:ParallelEstimator.__next__"]}
{"id": "C159", "title": "transfer_function_matrix tells what happens to a sinusoid, numerically and symbolically", "statement": "For every analog system and every angular frequency, transfer_function_matrix(omega) is D + CT X where X is the steady response of the states to a sinusoid of amplitude one at that frequency, and symbolic=True gives the same numbers as symbolic=False; with general=True the columns are, both ways, CT X for sinusoids added to the derivative of one state each, and multiplied by B they give the transfer function without its direct path; where there is no steady response the caller can tell.", "quantifier": "for all analog systems, all angular frequencies including zero, all inputs and outputs, and all forms in which the simplifier writes the expressions", "why_tests_cant": "The frequencies at which the answer is wrong form a finite set that depends on the system (the resonances); a grid of test frequencies misses them, and the numerical answer there is finite and looks ordinary.", "anchors": ["src/cbadc/analog_system/analog_system.py:AnalogSystem.transfer_function_matrix", "src/cbadc/analog_system/analog_system.py:AnalogSystem._atf", "src/cbadc/analog_system/analog_system.py:AnalogSystem._atf_symbolic", "src/cbadc/analog_system/analog_system.py:AnalogSystem._lazy_initialize_ATF", "src/cbadc/digital_estimator/batch_estimator.py:BatchEstimator.signal_transfer_function"]}
{"id": "C160", "title": "Waveforms read back from a circuit simulation", "statement": "After a circuit simulation has run, get_input_signals() and get_state_trajectories() of the ngspice simulator return one row per time point of the simulation: the time, then one column per header, and every column is the voltage of the node its header names. For n input signals and N states the headers are t followed by IN0_P..IN{n-1}_P, IN0_N..IN{n-1}_N, and t followed by XAF.X0_P..XAF.X{N-1}_P, XAF.X0_N..XAF.X{N-1}_N, no two equal even up to case. Everything that is read back, the clock and the control terminals included, is on the list of vectors the netlist tells ngspice to save. Of an op-amp frontend with ideal op-amps, the difference of the columns of a state is a solution of the state equation of the analog system. Asking before anything was simulated raises AttributeError; asking for inputs that are not highlighted, or were highlighted too late to be saved, raises ValueError.", "quantifier": "for all numbers of inputs, controls and states, all groups of highlighted terminals, all raw files that hold the saved vectors (in any order, among others, in any case), all op-amp frontends and all solutions of their circuit equations", "why_tests_cant": "The names are produced in four places (test bench, frontend, save list, look up) with different capitalisation, and a test runs one circuit of one size; that every name asked for is saved and lands in its column for all sizes, and that the columns solve the state equation, is a statement about all of them and about all solutions of the circuit.", "anchors": ["src/cbadc/circuit/simulator.py:NGSpiceSimulator.get_input_signals", "src/cbadc/circuit/simulator.py:NGSpiceSimulator.get_state_trajectories", "src/cbadc/circuit/simulator.py:NGSpiceSimulator.parse", "src/cbadc/circuit/simulator.py:NGSpiceSimulator.__init__", "src/cbadc/circuit/testbench.py:TestBench.highlighted_terminals", "src/cbadc/circuit/templates/ngspice/simulator.cir.j2"]}
{"id": "C161", "title": "Filters designed from a specification meet it", "statement": "IIRDesign(wp, ws, gpass, gstop, ftype) is an analog system with one input and one output, stable, that loses at most gpass decibel in the pass band and attenuates the stop band by at least gstop decibel, for low-pass, high-pass, band-pass and band-stop specifications and all documented filter types; Cauer(N, Wn, rp, rs) keeps the ripple and the attenuation of scipy's elliptic prototype.", "quantifier": "for all edge frequencies, losses, attenuations and admissible sortings of poles and zeros", "why_tests_cant": "A test designs one filter; whether the zeros and poles of a transformed filter survive the pairing in zpk2abcd depends on the order, the band type and the symmetry of the pattern.", "anchors": ["src/cbadc/analog_system/filters.py:Cauer", "src/cbadc/analog_system/filters.py:IIRDesign", "src/cbadc/analog_system/topology.py:zpk2abcd"]}
{"id": "C162", "title": "Symbolic state equations determine every trajectory", "statement": "AnalogSystem.symbolic_differential_equations(input, dim) returns equations whose solutions are exactly the functions satisfying x' = A x + B[:, dim] input, and with input_signal=False x' = A x + Gamma[:, dim] input. A dimension counted from the end names the same column and any other one raises IndexError; for a control of a system without Gamma the equations are the homogeneous ones. The homogeneous solution (homogenius_solution applied to the start state) plus the zero-start solutions for every input and every control is a trajectory of AnalogSystem.derivative with all inputs and controls at work, and the only one. The second returned value is documented as the functions the equations relate.", "quantifier": "for every analog system with at least one state, every dimension number, all inputs and controls (jumps allowed), every start state and every solution of the returned equations", "why_tests_cant": "the test only prints the equations of one system; that solutions of the separate equations superpose to the unique trajectory is a statement about all functions of time", "anchors": ["src/cbadc/analog_system/analog_system.py: AnalogSystem.symbolic_differential_equations, homogenius_solution, derivative, _symbolic_x"]}
{"id": "C163", "title": "Negated input gives the complementary bits and the negated estimate", "statement": "A converter simulated with the negative input signals, negative comparator offsets and the negative start state has at every period the negative state vector; its control signals are the complements (1 - s) of the original ones, and the estimates of FIRFilter (with negated offset), IIRFilter and BatchEstimator computed from them are the negatives, so that the digitisation introduces no polarity dependence - provided no comparator ever sees a value equal to its offset. On such a tie the comparator always decides 1 and the symmetry is lost.", "quantifier": "for every analog system and digital control, all inputs, states and offsets, every tie-free simulation and every simulation of the mirrored set-up, all filter coefficients and parameters", "why_tests_cant": "a test compares two finite simulations of one system; the symmetry of states, bits and all estimates over unbounded runs, for arbitrary systems, and the one situation that breaks it, are statements about all executions", "anchors": ["src/cbadc/simulator/numerical_simulator.py: FullSimulator.__next__", "src/cbadc/digital_control/digital_control.py: DigitalControl.control_update, control_contribution", "src/cbadc/digital_estimator/fir_estimator.py: FIRFilter.__next__", "src/cbadc/digital_estimator/iir_estimator.py: IIRFilter.__next__", "src/cbadc/digital_estimator/batch_estimator.py: BatchEstimator.__next__"]}
{"id": "C164", "title": "Converters stacked into one do not disturb each other", "statement": "Let stack([G1,...,Gn]) be simulated with one digital control for all controls, its filter coefficients be computed and its control signals be turned into estimates by FIRFilter, IIRFilter or BatchEstimator. If the parts have no direct path from input to control observation, the states, control signals and estimates that belong to part Gi are exactly what a simulator, digital control and estimator for Gi alone give from Gi's inputs and start state: no crosstalk between channels, in the analog part or in the digital filter. The coefficients of the stack can be computed whenever those of every part can. With a direct path (B_tilde) this fails, because the stack drops it: the comparators of the part decide differently alone.", "quantifier": "for every list of analog systems, every part of it, every digital control, all inputs and start states, every simulation of the stack and of the part, all eta2 and filter parameters", "why_tests_cant": "a test compares finitely many periods and numerical coefficients up to a tolerance for particular systems; that a joint Riccati equation, matrix exponentials and integrals separate exactly, and that this carries over to unbounded simulations and all estimates, is a statement about all systems and executions", "anchors": ["src/cbadc/analog_system/topology.py: stack", "src/cbadc/simulator/numerical_simulator.py: FullSimulator.__next__", "src/cbadc/digital_estimator/_filter_coefficients.py: FilterComputationBackend", "src/cbadc/digital_estimator/fir_estimator.py: FIRFilter.__next__", "src/cbadc/digital_estimator/iir_estimator.py: IIRFilter.__next__", "src/cbadc/digital_estimator/batch_estimator.py: BatchEstimator.__next__"]}
{"id": "C165", "title": "A conversion recorded to files and estimated later gives the estimates of the live converter", "statement": "Storing the control signal of a converter with control_signal_2_byte_stream and write_byte_stream_to_file(s), reading it back with read_byte_stream_from_file or read_byte_stream_from_url through byte_stream_2_control_signal, and handing that to an estimator gives, for every estimate whose control vectors have been recorded, exactly the estimate of the same estimator on the live control signal; afterwards the estimator ends with StopIteration. This does not depend on how the recording is split over files.", "quantifier": "All zero/one control signals that fit the storage word (all signals of a simulated converter with up to 15 or 17 to 31 controls), all recording lengths, all file sizes, all coefficients and settings; FIR, IIR, batch and parallel estimators; all calls before and after the end of the recording.", "why_tests_cant": "The result composes six generators and an estimator; what happens around the end depends on the recording length modulo the batch size and on how each layer translates the exception of the one below. Tests read a few samples from one stored file.", "anchors": ["src/cbadc/utilities.py: control_signal_2_byte_stream, byte_stream_2_control_signal, write_byte_stream_to_file, write_byte_stream_to_files, read_byte_stream_from_file, read_byte_stream_from_url", "src/cbadc/digital_estimator/fir_estimator.py: FIRFilter.__next__", "src/cbadc/digital_estimator/iir_estimator.py: IIRFilter.__next__", "src/cbadc/digital_estimator/batch_estimator.py: BatchEstimator.__next__", "src/cbadc/digital_estimator/parallel_digital_estimator.py: ParallelEstimator.__next__"]}
{"id": "C166", "title": "The netlist text of an op-amp frontend, read by a circuit simulator, is a circuit of the given system up to the rounding of the printed values", "statement": "The sub-circuit definition printed by OpAmpFrontend(analog_frontend, Vdd, Vin, C).get_sub_circuit_definitions() is a text that ngspice reads, ignoring the case of letters, as one sub-circuit with the terminals VSS, VDD, CLK, VCM, IN*_P, IN*_N, OUT*_P, OUT*_N in that order, whose elements have different names. If every printed capacitance and resistance is read back with a relative error of at most eps < 1, then the differential voltages of this circuit with ideal op-amps are exactly the solutions of dx/dt = A' x + B' u + Gamma' s, where every entry of A', B', Gamma' differs from the entry of A, B, Gamma by a fraction of at most 1/(1-eps)^2 - 1; in particular the sign of every coupling survives. With values read without error these are the given matrices. An analog system without a control matrix is rejected.", "quantifier": "All orders, numbers of inputs and controls, matrices (any signs, any zero entries), capacitances other than zero, object identities, number formats and readers with relative error below one on the values that occur; all behaviours of the circuit and all solutions of the state equation.", "why_tests_cant": "It composes the wiring of the frontend, the printing of every element, the reading of the text and circuit laws; whether folding the case of names merges two nodes, whether a sign is lost, and how an error of the printed digits moves the system are statements about all systems and all formats.", "anchors": ["src/cbadc/circuit/opamp.py: OpAmpFrontend, OpAmpFrontend._generate_resistor_pair, OpAmpFrontend._generate_integrators", "src/cbadc/circuit/analog_frontend.py: CircuitAnalogFrontend", "src/cbadc/circuit/__init__.py: SubCircuitElement.get_sub_circuit_definitions, get_ngspice", "src/cbadc/circuit/templates/ngspice/sub_circuit_definition.cir.j2"]}
{"id": "C167", "title": "States sampled together with the control signal of a circuit simulation", "statement": "NGSpiceSimulator of cbadc.simulator.simulator records with every control vector the states of the analog system at the same clock edge: after a simulation, row k of control_vector holds the digits of the control terminals and row k of state_vector the voltages of the positive state terminals X0_P, X1_P, ... at the k-th time point at which the clock has become low; rows without such a time point are zero. It is false that the rows are the states, which are the voltages between X_P and X_N: the negative terminals are read and dropped. And it is false that get_sampled_state_trajectories() returns them with their times: it always raises ValueError, because it puts a vector beside a matrix.", "quantifier": "All recorded waveforms, numbers of time points, controls and states, recording lengths and supply voltages.", "why_tests_cant": "The rows are cut out of one long tuple per time point by positions that depend on the numbers of controls and states, under a trigger that depends on the whole waveform before; a test sees one circuit. No test can run the simulator without ngspice.", "anchors": ["src/cbadc/simulator/simulator.py: NGSpiceSimulator.parse, NGSpiceSimulator.get_sampled_state_trajectories, NGSpiceSimulator.__init__"]}
{"id": "C168", "title": "The netlist texts of a Gm-C frontend, read by a circuit simulator, are a circuit of the given system up to the rounding of the printed values", "statement": "The sub-circuit definitions that GmCFrontend(analog_frontend, ..., C_int, DC_gain).get_sub_circuit_definitions() prints for the frontend and its transconductors are texts that ngspice reads, ignoring the case of letters, as one sub-circuit ota_frontend with the terminals VSS, VDD, CLK, VCM, IN*_P, IN*_N, OUT*_P, OUT*_N and one sub-circuit multi_input_ota_n per state with the terminals VSS, VDD, VCM, X*, IN*, S*, each with elements of different names. If every printed capacitance, transconductance and resistance is read back with a relative error of at most eps < 1, then the differential voltages of this hierarchy of circuits, with a digital control that does not load the states, are exactly the solutions of dx/dt = (A' - r I) x + B' u + Gamma' s, where every entry of A', B', Gamma' differs from that of A, B, Gamma by a fraction of at most 2 eps/(1-eps), r = 0 for an infinite gain, and otherwise r differs from b/(4 DC_gain) (b the largest magnitude in B) by a fraction of at most 1/(1-eps)^2 - 1. Without a control matrix, or with a finite gain and a vanishing input matrix, the constructor raises.", "quantifier": "All orders, numbers of inputs and controls, matrices (any signs, any zero entries), capacitances and gains other than zero, object identities, number formats and readers with relative error below one on the values that occur; all behaviours of the circuit and all solutions of the state equation.", "why_tests_cant": "It composes two levels of wiring, the printing of every element, the reading of the texts and circuit laws of nested sub-circuits; that folding the case of names merges no nodes, that no sign is lost, and how an error of the printed digits moves the system are statements about all systems and all formats.", "anchors": ["src/cbadc/circuit/ota.py: MultiInputOTA, GmCFrontend, GmCFrontend._generate_integrators", "src/cbadc/circuit/components/ota.py: OTA", "src/cbadc/circuit/analog_frontend.py: CircuitAnalogFrontend", "src/cbadc/circuit/__init__.py: SubCircuitElement.get_sub_circuit_definitions, get_ngspice", "src/cbadc/circuit/templates/ngspice/sub_circuit_definition.cir.j2"]}
{"id": "C169", "title": "Range of the estimates and effect of a wrong control bit", "statement": "Whatever 0/1 control vectors an FIRFilter receives, every entry of every estimate deviates from the offset by at most the sum of the magnitudes of the taps h of that entry, also while the buffer still holds the initial zeros or the controls of an earlier stream; once the filter is filled there is a stream for which the deviation equals the bound, on either side. A fixed-point FIRFilter therefore estimates every stream without ArithmeticError exactly if the magnitude of the offset plus the magnitudes of the integer taps is at most the largest integer of the format, for each entry. If one control value of one sample is received wrongly, exactly the estimates whose last K1+K2 samples contain it change, each by twice the difference times the single tap it meets.", "quantifier": "All filters (any taps, offsets, K1, K2, downsampling up to K1+K2), all states of the buffer with values in [-1,1], all 0/1 streams and all calls; all fixed-point formats and integer taps; all positions of the wrong value.", "why_tests_cant": "The worst stream among 2^((K1+K2) M) is not met by sampling, and the absence of overflow is a statement about all of them.", "anchors": ["src/cbadc/digital_estimator/fir_estimator.py: FIRFilter.__next__, FIRFilter.__init__", "src/cbadc/utilities.py: FixedPoint.fixed_to_float"]}
{"id": "C170", "title": "A circuit simulation of the closed loop follows the package's own simulation", "statement": "Take the netlist of OpAmpFrontend (ideal op-amps) or GmCFrontend (ideal transconductors) of an analog system, with the digital control, comparators and clocked comparators it contains, and the package's own FullSimulator run of the same system with a DigitalControl whose t_delay is the delay of the comparators. In units of the swing of the comparators, both take exactly the same decisions and their states stay within an explicit bound of each other, throughout every period, for as long as no observation of the simulation is closer to zero than the thresholds of the comparators plus the bound. The bound grows from the initial deviation by the effect of the output ramps and the rate of the system; if the circuit applies other controls than the simulator until the first decision arrives, as it does because FullSimulator starts without a control, their effect during the delay is part of the initial deviation. If no observation in the first K periods is exactly zero, then every accuracy is reached by every circuit whose ramps, thresholds and initial deviation are small enough. This should also hold for systems that observe their controls directly; it does not with a delayed control, because FullSimulator then observes the controls of the period before instead of those applied.", "quantifier": "All systems with a control matrix and one comparator per control (direct observation of controls zero), capacitances, common modes, timings with delay plus ramp below the period, clocks, inputs continuous at the clock edges, runs of the simulator and behaviours of the netlist, and all numbers of periods.", "why_tests_cant": "A comparison of two simulations shows their agreement for one system, input and time span; that the agreement persists for all periods and improves without limit needs a bound for all of them.", "anchors": ["src/cbadc/circuit/opamp.py: OpAmpFrontend", "src/cbadc/circuit/ota.py: GmCFrontend", "src/cbadc/circuit/digital_control.py: DigitalControl, MultiInputComparator", "src/cbadc/circuit/components/comparator.py: ClockedComparator", "src/cbadc/simulator/numerical_simulator.py: FullSimulator.__next__", "src/cbadc/digital_control/digital_control.py: DigitalControl.control_update, DigitalControl.control_contribution"]}
{"id": "C171", "title": "An ngspice simulation of a test bench delivers the control vectors of the package's own simulation", "statement": "Build OpAmpTestBench or OTATestBench with ideal amplifiers around an analog system, simulate it with NGSpiceSimulator, and run FullSimulator on the same system with a DigitalControl on the same clock whose t_delay is that of the comparators (T/500), reset to the first rising edge of the clock and started without a control as it always is. Then the control vectors read from the recorded voltages are the control signals of FullSimulator, one position late: vector k+1 is what FullSimulator decides in period k, for all k for which no observation of the simulation came closer to zero than an explicit bound; and until then the states agree within that bound. This requires the inputs of FullSimulator to be the voltages of the test bench divided by the supply voltage. It is false that the same signals can be given to both: unless the supply is one volt, the circuit is fed another fraction of its swing than the simulator. (That vector k itself belongs to period k is false, C115.)", "quantifier": "All systems with a control matrix and one comparator per control (direct observation of controls zero), capacitances, lists of sinusoidal inputs, clock periods and transition times, supply voltages, behaviours of the circuit, runs of the simulator, recordings with time steps below half a clock period, end times and numbers of periods.", "why_tests_cant": "The chain runs through the sources, the frontend, the comparators and the parser of an external program that the tests do not have; an agreement seen in one run says nothing about the next period or the next recording.", "anchors": ["src/cbadc/circuit/testbench.py: OpAmpTestBench, OTATestBench, TestBench", "src/cbadc/circuit/opamp.py: OpAmpFrontend", "src/cbadc/circuit/ota.py: GmCFrontend", "src/cbadc/circuit/digital_control.py: DigitalControl", "src/cbadc/circuit/simulator.py: NGSpiceSimulator.parse, NGSpiceSimulator.__next__", "src/cbadc/simulator/numerical_simulator.py: FullSimulator.__next__", "src/cbadc/simulator/_base_simulator.py: _BaseSimulator.reset"]}
{"id": "C172", "title": "Estimates from an ngspice simulation of a test bench are those from the package's own simulation", "statement": "Under the conditions of C171, give the control vectors read by NGSpiceSimulator and those of FullSimulator to two equal estimators. A FIRFilter (no down-sampling, no limit) returns from the circuit, at call n+1, exactly the estimate it returns from FullSimulator at call n, for all n from K1+K2-1 on for which C171 gives the vectors. An IIRFilter returns estimates that differ by exactly WT Af^(n+1-K2) Bf (2 s - 1), s being the first vector read from the circuit. It is false that all FIR estimates agree: before the window is filled the estimator has zeros in the place of the first vector of the circuit.", "quantifier": "As C171, and all FIR filters with at least one tap, all coefficients and look-aheads K2 >= 1 of IIR filters, all dimensions, all calls within the range.", "why_tests_cant": "It joins circuit, recording, parser and estimator over unboundedly many periods; the tests have no circuit simulator, and one waveform settles neither the shift by one vector nor from which estimate on the results are equal.", "anchors": ["src/cbadc/circuit/simulator.py: NGSpiceSimulator.__next__", "src/cbadc/simulator/numerical_simulator.py: FullSimulator.__next__", "src/cbadc/digital_estimator/fir_estimator.py: FIRFilter.__next__", "src/cbadc/digital_estimator/iir_estimator.py: IIRFilter.__next__", "src/cbadc/circuit/testbench.py: OpAmpTestBench, OTATestBench"]}
{"id": "C173", "title": "A test bench with transconductors of finite gain follows the package's own simulation", "statement": "OTATestBench requires a DC_gain, and GmCFrontend has one of 1e6 by default, while FullSimulator simulates the analog system as given. Every state of the circuit then leaks at the rate b/(4 DC_gain), b being the largest magnitude in B. For the first K periods of a simulation whose states stay within X, the states of the circuit, in units of the supply, stay within a computable deviation of the simulated ones: it starts with the initial difference E and grows in every period of length T to (deviation + 2 g ramp + b/(4 DC_gain) X T) exp(a T), a and g bounding the row sums of the leaking system matrix and of Gamma. As long as no observation of the simulation is closer to zero than h times this deviation accounts for, the circuit takes the same decisions, the parser reads the control vectors of the package's own simulation one vector late, and FIR and IIR estimators return the estimates as in C172. It is false that the bound of C170/C171 holds without the leakage.", "quantifier": "All analog systems with as many controls as observations and no direct path from the controls to the observations, all capacitances and gains other than zero, input matrices that do not vanish, all sinusoidal inputs, clocks, supplies, numbers of periods and behaviours of the circuit.", "why_tests_cant": "The tests run no circuit simulator; and how an error that is made in every instant adds up over unboundedly many periods in a loop with switching controls cannot be read off from a finite number of runs.", "anchors": ["src/cbadc/circuit/ota.py: MultiInputOTA, GmCFrontend", "src/cbadc/circuit/testbench.py: OTATestBench", "src/cbadc/circuit/digital_control.py: DigitalControl", "src/cbadc/circuit/simulator.py: NGSpiceSimulator.__next__", "src/cbadc/simulator/numerical_simulator.py: FullSimulator.__next__"]}
{"id": "C174", "title": "Component tolerances: a simulation of slightly different coefficients takes the same decisions", "statement": "Take two AnalogSystems of the same dimensions whose coefficients differ, and simulate both with FullSimulator, the same digital control and the same inputs. If during the first K periods the states of the first simulation stay within X, the inputs within U and the contributions of the controls within W, then the difference of the states starts with the initial difference E and grows in a period of length T at most to (deviation + eta T) exp(a T), where a bounds the row sums of the second system matrix and eta what the differences in the rows of A, B and Gamma make of X, U and W. As long as every observation of the first simulation is further from its threshold than h times the deviation plus what the differences in Gamma_tildeT, B_tilde and A_tilde make, both take the same decisions, and FIR and IIR estimators return identical estimates. If no observation is exactly at its threshold, then for every accuracy there is a tolerance of the coefficients and initial states within which all this holds for K periods. At the threshold this is false: an arbitrarily small change of one coefficient changes a decision.", "quantifier": "All pairs of analog systems of the same dimensions, all digital controls (waveforms, phases, thresholds), inputs, initial states, numbers of periods, tolerances, FIR filters with a down-sampling of at most the number of taps, IIR filters with any down-sampling.", "why_tests_cant": "The tolerance quantifies over all systems in a neighbourhood, and the claim over unboundedly many periods of a loop with discontinuous decisions; simulating some random mismatches does not show that none in the range changes a decision.", "anchors": ["src/cbadc/simulator/numerical_simulator.py: FullSimulator.__next__", "src/cbadc/analog_system/analog_system.py: AnalogSystem.derivative, AnalogSystem.control_observation", "src/cbadc/digital_control/digital_control.py: DigitalControl.control_update", "src/cbadc/digital_estimator/fir_estimator.py: FIRFilter.__next__", "src/cbadc/digital_estimator/iir_estimator.py: IIRFilter.__next__"]}
{"id": "C175", "title": "The printed frontend, as ngspice reads it, in the test bench follows the package's own simulation", "statement": "The netlist that get_ngspice prints contains rounded values and is read by ngspice without distinction of case. If every printed value of an op-amp frontend is read within a fraction epsilon, then a circuit simulation of the test bench whose frontend is what ngspice reads from the text follows FullSimulator's simulation of the given (unrounded) system for the first K periods: with kappa = 1/(1 - epsilon)^2 - 1, the states, in units of the supply, stay within a deviation that grows in every period of length T from the initial difference to (deviation + 2 g ramp + eta T) exp(a T), where eta bounds kappa times what A, B and Gamma contribute to the derivative of a state, and a, g bound the row sums of A and Gamma times 1 + kappa. As long as no observation of the simulation is closer to zero than this deviation accounts for, the circuit takes the same decisions, the parser reads the control vectors of the package's own simulation one vector late, and FIR and IIR estimators return the estimates as in C172. The same holds for the Gm-C frontend with its transconductors, with 2 epsilon/(1 - epsilon) in place of kappa; with a finite DC_gain, rho = b/(4 DC_gain)/(1 - epsilon)^2, b being the largest magnitude in B, is added to a, and rho times the bound of the states to eta.", "quantifier": "All analog systems with a control input matrix, as many controls as observations and no direct path from the controls to the observations, all capacitances other than zero, all gains (finite ones other than zero, with an input matrix that does not vanish), all printers and readers of numbers with a relative error of at most epsilon < 1 on the values of the frontend, all sinusoidal inputs, clocks, supplies, numbers of periods and behaviours of the circuit.", "why_tests_cant": "The tests run no circuit simulator; and the effect of rounding the values of all elements at once over unboundedly many periods of a switched loop cannot be read off from a finite number of runs.", "anchors": ["src/cbadc/circuit/__init__.py: SubCircuitElement.get_ngspice, SubCircuitElement.get_sub_circuit_definitions", "src/cbadc/circuit/opamp.py: OpAmpFrontend", "src/cbadc/circuit/ota.py: MultiInputOTA, GmCFrontend", "src/cbadc/circuit/testbench.py: OpAmpTestBench, OTATestBench", "src/cbadc/circuit/digital_control.py: DigitalControl", "src/cbadc/circuit/simulator.py: NGSpiceSimulator.__next__", "src/cbadc/simulator/numerical_simulator.py: FullSimulator.__next__"]}
{"id": "C176", "title": "A control signal kept as text gives the estimates of the live converter", "statement": "A control signal written to a text file, one line per sample, decimal numerals of -128 to 127 with the separator and any blanks between them, in either order of the controls and with the line ends of any system, is read by csv_2_control_signal sample by sample; FIR, IIR and batch estimators reading the file give exactly the estimates they give on the live control signal for everything that was recorded, and raise StopIteration afterwards. Any simulation of a converter with any number of controls can be kept this way. The first line with another number of entries raises RuntimeError, with all samples before it delivered. It is false that numbers beyond eight bits are kept (200 is read as -56), that voltages with decimals are read (one entry per line, 0.9 becomes 0), and that the file written by the observer of a test bench can be read: its header raises RuntimeError, which an estimator turns into an empty result.", "quantifier": "all texts of such tables (all separators without white space that do not begin with a digit), all numbers of controls, of samples, all estimators and settings; all simulations; all files of observers", "why_tests_cant": "The text has a free form (blanks, signs, leading zeros, line ends, separators) and any length; a test reads a few strings, and none joins the reader with an estimator or with the observer's file.", "anchors": ["src/cbadc/utilities.py:csv_2_control_signal", "src/cbadc/circuit/models/observer.py:ObserverModel.get_verilog_ams", "src/cbadc/circuit/templates/verilog_ams/observer.vams.j2", "src/cbadc/circuit/testbench.py:TestBench", "src/cbadc/digital_estimator/fir_estimator.py:FIRFilter", "src/cbadc/digital_estimator/iir_estimator.py:IIRFilter", "src/cbadc/digital_estimator/batch_estimator.py:BatchEstimator"]}
{"id": "C177", "title": "The leap-frog design from effective bits uses a closed-form factor and needs no faster clock than the chain", "statement": "The integration factor used by get_leap_frog(ENOB, N, BW) is a number for every order: the symbolic expression depends neither on the bandwidth nor on the gain symbol, and equals 4^N / (1 + 1/3 + 1/5 + ... + 1/(2N+1)). With it the synthesised frontend has the mean squared inverse in-band gain 1 / (xi SNR) for every order, with no assumption on the factor, and its clock period is the one solving that equation. For one and the same specification with the same xi, get_leap_frog and get_chain_of_integrator both succeed and the ratio of their clock periods to the power 2N is 4^N / ((2N+1)(1 + 1/3 + ... + 1/(2N+1))): the leap-frog clock is never faster, equal for one integrator and strictly slower for two or more.", "quantifier": "all system orders, bandwidths, numbers of bits, constants xi, values of the symbols; all chain options for delay, leakage and feedback", "why_tests_cant": "The factor is a symbolic integral of a product of N factors that tests evaluate for a few small N at floating-point accuracy; the closed form, positivity for all N and the comparison of the two structures need the orthogonality structure of Chebyshev polynomials and an induction over N.", "anchors": ["src/cbadc/synthesis/leap_frog.py:g_i", "src/cbadc/synthesis/leap_frog.py:get_leap_frog", "src/cbadc/synthesis/chain_of_integrators.py:g_i", "src/cbadc/synthesis/chain_of_integrators.py:get_chain_of_integrator"]}
{"id": "C178", "title": "The bandwidth handed to eta2 is the half-gain bandwidth of the estimator", "statement": "If the estimator is given eta2 = analog_system.eta2(BW), its signal transfer function is one half exactly at the edge of the band. For every chain of integrators (any nonzero couplings, any leakages) the signal transfer function falls strictly with the frequency, so that it is at least one half exactly for the positive frequencies up to BW. For the frontends of get_leap_frog from a bandwidth, an order and an oversampling ratio of at least pi/delta the same holds (at least one half exactly up to BW) although the transfer function is not monotone in the band, at every frequency at which the structure does not oscillate by itself, among them the band edge and everything beyond.", "quantifier": "all orders, couplings, leakages, control gains, bandwidths, oversampling ratios of at least pi/delta, all frequencies outside the resonances, all pseudo-inverses satisfying the Penrose conditions", "why_tests_cant": "Tests plot or sample the transfer function on a grid of a few designs; that no in-band dip and no out-of-band bump crosses one half, for any order and any design, is a statement over a continuum of frequencies and needs inequalities between Chebyshev polynomials.", "anchors": ["src/cbadc/analog_system/analog_system.py:AnalogSystem.eta2", "src/cbadc/analog_system/analog_system.py:AnalogSystem.transfer_function_matrix", "src/cbadc/digital_estimator/batch_estimator.py:BatchEstimator.signal_transfer_function", "src/cbadc/analog_system/chain_of_integrators.py:ChainOfIntegrators", "src/cbadc/synthesis/leap_frog.py:get_leap_frog"]}
{"id": "C179", "title": "The power spectral density adds up to the power of the sequence", "statement": "compute_power_spectral_density(x, nperseg, fs) returns densities that are not negative and that, times the distance of the returned frequencies, add up to the power of the sequence: the average over the half-overlapping segments of the mean square deviation from the mean of the segment, weighted with the squared Blackman window. An offset of the sequence does not change them, a factor enters squared. With this spectrum and all bins as noise, snr_spectrum_computation_extended returns the rms value of the sequence as noise_rms, and the squared quotient of signal_rms and noise_rms is the signal-to-noise ratio.", "quantifier": "all nonempty sequences, segment lengths, sampling frequencies, masks", "why_tests_cant": "Tests look at the ratio of a few spectra; the scale, in which a one-sided spectrum has to be folded without counting the first and the last bin twice for even and odd lengths, is an identity over all sequences and lengths.", "anchors": ["src/cbadc/utilities.py: compute_power_spectral_density, snr_spectrum_computation_extended"]}
{"id": "C180", "title": "A pure tone has infinite signal-to-noise ratio and the right power", "statement": "Let a sequence be a sinusoid of any amplitude and phase with a whole number m of periods per segment, at least three bins from either end of the spectrum. Its power spectral density is that of the Blackman window around bin m, five bins wide, whatever the phase, the length and the number of segments. find_sinusoidal finds bin m, and for every mask width of at least the five bins of the tone, the bins of the returned mask times the distance of the frequencies add up to A^2/2, and snr_spectrum_computation with this mask as signal and all other bins as noise is infinite.", "quantifier": "all amplitudes, phases, sampling frequencies, sequence and segment lengths, numbers of periods, mask widths", "why_tests_cant": "In floating point no tone has infinite ratio, so a test can only ask for a large number for a few tones; that nothing but rounding limits it, and from which width on, is an identity over all tones.", "anchors": ["src/cbadc/utilities.py: compute_power_spectral_density, find_sinusoidal, snr_spectrum_computation"]}
{"id": "C181", "title": "The distortion figures of a mixture of tones are ratios of amplitudes", "statement": "Let a sequence be a sum of sinusoids of any amplitudes and phases, each with a whole number of periods per segment, at least five bins from each other and three from the ends of the spectrum. Its power spectral density is the sum of theirs; find_n_sinusoidals, asked for as many tones as there are, returns the windows around all of them if they are further apart than the mask (of width 6 or more) is wide; and the bins of any mask that covers some of the tones with two bins on either side and stays clear of the others contain exactly the sum of A_i^2/2 over the covered tones. With one tone as signal, all others as harmonics and a noise mask clear of them all, snr_spectrum_computation_extended returns thd = thd_n = sqrt(sum of the A_i^2 of the others)/|A| and sinad = 1 + A^2/(sum of the A_i^2 of the others).", "quantifier": "all numbers of tones, amplitudes, phases, sampling frequencies, sequence and segment lengths, masks", "why_tests_cant": "That phases and lengths do not matter and that tones do not disturb each other is an identity over a continuum of mixtures; tests see a few of them up to tolerances.", "anchors": ["src/cbadc/utilities.py: compute_power_spectral_density, snr_spectrum_computation_extended"]}
{"id": "C182", "title": "Gain, offset, sampling frequency and trailing samples do not change the evaluation of a spectrum", "statement": "Evaluating a sequence a*x + b (a other than zero, of either sign) with compute_power_spectral_density and any sampling frequency gives the same bins in find_n_sinusoidals and find_sinusoidal, the same result of snr_spectrum_computation, and the same snr, sinad, thd and thd_n of snr_spectrum_computation_extended, for any masks, as evaluating x with another sampling frequency; masks outside the spectrum raise the same exceptions. The rms values are those of x times |a|. The samples behind the last whole segment, of which there are fewer than half a segment, do not influence the spectrum.", "quantifier": "all sequences that are not empty, gains, offsets, positive sampling frequencies, segment lengths, masks, widths and numbers of tones", "why_tests_cant": "The invariance quantifies over all sequences, gains and masks; the peak search is a sequence of comparisons that a test compares on a few recordings only.", "anchors": ["src/cbadc/utilities.py: compute_power_spectral_density, find_n_sinusoidals, find_sinusoidal, snr_spectrum_computation, snr_spectrum_computation_extended"]}
{"id": "C183", "title": "A disturbed tone is still found, and its signal-to-noise ratio is as large as the disturbance is small", "statement": "Let a sequence be a sinusoid of amplitude A with a whole number of periods per segment, at least three bins from the ends of the spectrum, plus any disturbance of at most delta. If delta is at most |A|/20, find_sinusoidal returns the window around the bin of the tone, as without the disturbance. More than two bins away from the tone the power spectral density is that of the disturbance alone, however large it is. With a mask of width 6 or more as signal and the rest of the bins as noise, snr_spectrum_computation returns at least (A/(5 delta))^2 (or infinity).", "quantifier": "all amplitudes, phases, disturbances within the bound, sampling frequencies, sequence and segment lengths, widths of the mask", "why_tests_cant": "The worst disturbance among all bounded sequences cannot be found by trying some; a test with random noise sees typical ones.", "anchors": ["src/cbadc/utilities.py: compute_power_spectral_density, find_sinusoidal, snr_spectrum_computation"]}
{"id": "C184", "title": "The rms values of a spectrum obey the triangle inequality", "statement": "For any masks, noise_rms and signal_rms of snr_spectrum_computation_extended for the sum of two sequences are at most the sums of their values for the two sequences alone. Consequently, if no sample of a sequence changes by more than delta, the square root of the power (density times the distance of the frequencies) within any mask changes by at most 2 delta; and for a sinusoid of amplitude A with a whole number of periods per segment, at least three bins from the ends, plus any disturbance of at most delta, this root within every mask that covers the tone with two bins on either side differs from |A|/sqrt(2) by at most 2 delta, and snr_spectrum_computation, given such a signal mask and a noise mask that stays two bins clear of the tone, returns at least ((|A|/sqrt(2) - 2 delta)/(2 delta))^2 if |A|/sqrt(2) >= 2 delta.", "quantifier": "all pairs of sequences, sequence and segment lengths, sampling frequencies, masks without repetitions within the spectrum; all amplitudes, phases, disturbances and bounds delta", "why_tests_cant": "An inequality over all pairs of sequences; tests with random sequences are far from the cases of equality.", "anchors": ["src/cbadc/utilities.py: compute_power_spectral_density, snr_spectrum_computation_extended"]}
{"id": "C185", "title": "The word length of the filter coefficients changes every part of the spectrum by at most two steps per tap", "statement": "Let FIRFilter (FIREstimator) be constructed with and without fixed_point, with the same arguments and the same control signal of bits, and let the sums of the magnitudes of the taps, for every estimate, not exceed the largest number of the format. Then the fixed-point filter can be constructed and delivers its first estimates without overflow; and in the power spectral densities of equally many first estimates of the two filters, the square roots of the powers within any mask (of signal, noise, or harmonics) differ by at most 2 (K1 + K2) M steps of the format, M being the number of controls.", "quantifier": "all filter coefficients, K1, K2, downsampling factors, formats, control signals of bits, numbers of estimates, segment lengths, sampling frequencies, estimates and masks", "why_tests_cant": "A bound over all filters and control signals; a test sees the rounding errors of one filter, which mostly cancel.", "anchors": ["src/cbadc/digital_estimator/fir_estimator.py:FIRFilter.__init__", "src/cbadc/digital_estimator/fir_estimator.py:FIRFilter.__next__", "src/cbadc/utilities.py:FixedPoint", "src/cbadc/utilities.py: compute_power_spectral_density, FixedPoint"]}
{"id": "C186", "title": "The spectrum of the estimates depends neither on the estimator nor, up to a geometrically small amount, on the length of its filters", "statement": "Let the filters of a converter decay. For every stream of control vectors there is one sequence of ideal estimates such that, within any mask of the power spectral density of equally many values, the square root of the power of the FIR estimates differs from that of the (correspondingly delayed) ideal sequence by at most C (r^K1 + r^K2), and those of the IIR and the batch estimates by at most C r^K2, with constants C and r < 1 that depend neither on the stream nor on the number of evaluated estimates, the segment length, the sampling frequency or the mask. So signal, noise and harmonic powers measured with different estimators agree up to these amounts.", "quantifier": "all filter coefficients whose filter matrices have vanishing powers, control streams within [0, 1], filter lengths, batch sizes, numbers of estimates, segment lengths, sampling frequencies, masks", "why_tests_cant": "The constants hold for all streams and all lengths at once; a test compares two estimators on one simulation.", "anchors": ["src/cbadc/digital_estimator/fir_estimator.py: FIRFilter", "src/cbadc/digital_estimator/iir_estimator.py: IIRFilter", "src/cbadc/digital_estimator/batch_estimator.py: BatchEstimator", "src/cbadc/utilities.py: compute_power_spectral_density, snr_spectrum_computation"]}
