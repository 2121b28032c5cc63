# Formal model of cbadc: design

Source: `/repo` (package `src/cbadc`), read as text only.  The model lives in `lean/Verif`.

## Layout

* `Verif/Model/*.lean`: definitions transcribed from the Python source, function by function.  Every
  definition carries a comment citing file and lines; simplifications are named in that comment.
* `Verif/Spec/*.lean`: small specifications that do not use the model's helper functions.
* `Verif/Lemmas/*.lean`: helper lemmas.
* `Verif/Props/*.lean`: the property theorems, each followed by an `example` showing that a concrete
  non-trivial case meets its hypotheses.

## Modelling conventions

* **Numbers.**  Floating-point numbers are modelled by exact arithmetic: an arbitrary linearly ordered
  field `K` (examples use `ℚ`), or `ℝ`/`ℂ` where analysis is needed.  Rounding errors, NaN, infinities and
  overflow are *not* modelled.  Integers (Python `int`) are `ℤ`/`ℕ`, unbounded as in Python.
* **Arrays.**  numpy arrays of statically known shape are functions `Fin n → K` / `Matrix`; where the shape
  itself is checked at run time the model carries the shape explicitly.
* **Exceptions** are values: `Res α = ok a | raise e` with an enumeration of exception classes.  PEP 479
  (a `StopIteration` escaping a generator body becomes `RuntimeError`) is modelled where generators occur.
* **Iterators** that receive no feedback are functions `ℕ → Res α`: the result of the n-th `next()`.
* **Aliasing** (numpy views) is modelled by an explicit one-cell heap where a property depends on it.
* **Numerical solvers** (`solve_ivp`, `expm`, `care`, `eig`, `lstsq`, `pinv`) are not modelled as algorithms.
  Their mathematical results enter as parameters with the defining equation as hypothesis, or as the
  mathematical function itself.  This is part of the trusted base.
* **False properties.**  When the code violates an expected property the full statement is kept in
  `properties.jsonl`, the model proves the negation with a concrete witness (`..._false`), and a theorem with
  suffix `_partial` proves the part that does hold.

## Trusted base

* the Lean 4.33.0 kernel and the axioms `propext`, `Classical.choice`, `Quot.sound` (no others: see
  `Verif/Audit.lean`, which prints the axioms of every listed theorem);
* that the transcription in `Verif/Model` is faithful to the Python source, given the conventions above;
* exact arithmetic instead of IEEE doubles; numpy / scipy / mpmath / struct primitives behave as documented.

Not modelled at all: plotting, logging, printing (also the `print` in `batch`), documentation, file system
errors, jinja templates' text, `ngspice`/spectre subprocesses, performance, sympy/mpmath symbolic backends
(other than as a third evaluator of signals in C72 and as exact solvers in C96), `BandLimitedSignal`,
`RaisedCosine`, `Clock.symbolic`, rms values and window gains of spectra.

What enters as a parameter, and with which assumption:

| parameter | assumption |
| --- | --- |
| ODE solver (`solve_ivp`, mpmath `odefun`) | returns the end point of an exact solution of the right-hand side it was given |
| `expm`, forced-response integrals of the pre-computed simulator | are the exact integrals |
| Riccati solver (`care`) | coefficient arrays are arbitrary (estimator properties), symmetric solutions of the equation (C95-C97), or computed from a basis of eigenvectors (C98) |
| `eig`, `diagonalize` | some basis of exact eigenvectors, sorted by real part |
| `scipy.signal.iirfilter` | its prototypes `buttap`, `cheb1ap`, `cheb2ap` and `lp2lp_zpk` are modelled in exact arithmetic; elliptic filters and `iirdesign` are not modelled |
| `scipy.signal.welch`, `windows.blackman` | modelled in exact arithmetic with the arguments of `compute_power_spectral_density` |
| `np.linalg.pinv` | Moore-Penrose inverse |
| `np.linalg.lstsq` | returns some minimiser of the residual |
| random generators, permutations | arbitrary functions of the draw number, arbitrary permutations |
| `np.fromstring` on one line of a CSV file | arbitrary partial function |
| `g_i` of the leap-frog synthesis | arbitrary positive number, or its defining integral where the statement needs it |

Objects with identity (arrays handed out by a control, signals that keep state, random signals shared by two
users, terminals of a circuit) are modelled by explicit heaps: references are natural numbers.

## Evidence from wrong programs

`seeded/LOG.jsonl` records one line per deliberate edit of the model.  A failed build alone is weak evidence:
an edit that leaves the meaning unchanged (`equivalent program` control in the log) also breaks proof scripts.
Where `evidence` starts with `refuted`, the negation of the theorem was proved about the edited
model for a concrete instance, so the theorem itself is false there.

## Per property: what is modelled, how it is proved, and what came out

* **C01** Byte-stream encoding of control signals round-trips. *Plan:* Model `struct.pack/unpack` little-endian two's complement words as integers with range check; encoder/decoder loops over bits. Proof: `Nat.testBit` of the bit sum, by induction on M. **Status:** proved. Words are modelled as byte lists (little-endian two's complement).
* **C02** Every supported control signal can be stored. *Plan:* False (M=16, 32..64, 65..128 use signed formats). Negation with witnesses; partial: exact iff-characterisation of accepted vectors, total for M<=15 and 17<=M<=31. **Status:** partial. False for M=16 and 32<=M<=128 (signed formats): C02_false. Exact acceptance condition and totality for the remaining M proved.
* **C03** Files written by write_byte_stream_to_file(s) contain exactly the encoded stream. *Plan:* Writer loop over an iterator modelled with fuel-free recursion on the list of words; induction over chunks. **Status:** proved. words_per_file >= 1.
* **C04** Reading a stored byte stream back gives the stored stream. *Plan:* False (the reader yields a trailing empty word per file; the decoder raises struct.error). Negation with witness; partial: the words preceding the first file end are decoded correctly. **Status:** partial. False: the reader yields an empty word at each file end, the decoder then raises struct.error; only the first file is ever delivered. The exact behaviour is proved.
* **C05** Stream generators deliver exactly the promised samples and then end by an error the estimators understand. *Plan:* Generators as state machines `n-th next()`; induction on the number of calls; PEP 479. **Status:** proved. The estimator side is in the FIR/IIR models (C38).
* **C06** Iterators are copied faithfully into arrays. *Plan:* Loop over `src : Nat -> Res`; induction on size. **Status:** proved.
* **C07** Fixed-point conversion error is below one quantisation step. *Plan:* Truncation toward zero on a linearly ordered field with floor. **Status:** proved. Exact arithmetic.
* **C08** Fixed-point integers survive the trip through floating point. *Plan:* As C07. **Status:** proved. Exact arithmetic.
* **C09** Fixed-point conversions raise exactly on out-of-range values. *Plan:* As C07. **Status:** proved. Exact arithmetic.
* **C10** Fixed-point numbers fit the declared signed word length. *Plan:* False at v = max. Negation; partial: fits whenever |v| < max, and always fits bits+1. **Status:** partial. False at v = max; holds for every other accepted value.
* **C100** The NUV estimates solve a smoothing problem for the analog system. *Plan:* Smoothing problem in continuous time (`Spec/Nuv.lean`); the forward and backward passes are shown to satisfy the optimality conditions (`Lemmas/NuvSmoother.lean`), and these to imply optimality and uniqueness (`Lemmas/NuvLeastSquares.lean`). The documented variance and general output matrices are refuted by witnesses. **Status:** partial. Proved with variance covU^2 and estimates divided by covU (the code uses covU twice), for symmetric output matrices (the code takes the transpose of the output matrix for the innovation), and for waveforms that repeat in each sampling period; the first estimate of each batch is not a value of the input. The property as documented is refuted by two witnesses.
* **C101** Each NUV iteration improves the explanation or it was already the best. *Plan:* Each round minimises a quadratic majorant of the penalised cost that touches it at the previous explanation; strict convexity in the outputs gives the alternative (`Lemmas/NuvDescent.lean`). For the rate, the smoothed explanation is compared with the points between it and any other explanation; the excess of the majorant over the penalty is quadratic with a curvature bounded by the least variance, which gives the recursion d(i+1) ≤ (1 − α) d(i) + α² D for all α in [0, 1], and from it d(i) ≤ 4 D / (i + 2) (`Lemmas/NuvRate.lean`). **Status:** partial. Under the hypotheses of C100 on the output matrix and the waveforms; the rate has the least variance that the code allows, 1e-100, in its denominator, and so says something only for enormous numbers of iterations; the statement for enough iterations is for the first batch, whose prior does not depend on their number.
* **C102** Consecutive windows of the NUV estimator join. *Plan:* The prior of a batch is shown to be the prediction for one sample time earlier; for the refutation, two streams that differ in the last decision of a batch are shown to give the same later estimates (`Lemmas/NuvChain.lean`). **Status:** partial. Refuted: the last decision of a batch is never propagated, and for K1 = 1 nothing is. Proved: what is handed over is the optimal prediction one sample time too early.
* **C103** Global control decides for the least output energy over the following period. *Plan:* Model: `GlobalControl`, `Row`, `RowSol` (solutions of the initial value problems and Gram integrals as relations), `corrected`, `zoh`. Specification: `Solves`, `Accumulates`, `energy` in terms of trajectories. Proof: superposition of the solutions, the energy is a quadratic polynomial in the decision whose vertex is the observation. Two witnesses refute the full statement. **Status:** partial. Proved when the signals up to the deciding one act with their waveforms until the end of the clock period and the later ones do not act; with a single signal that decides at the beginning of the period this is the comparator of the digital control. False in general: the last decisions of the later signals are neglected (`C103_later_false`), and so is the part of a waveform beyond the end of the clock period (`C103_phase_false`).
* **C104** Global control changes nothing but the control observation. *Plan:* From the constructor call at the end of `get_global_control` and the model of the constructor; a feedthrough is a witness against the full statement. **Status:** partial. Transfer functions agree for systems without direct feedthrough; the matrix D is not passed on, so that a system with feedthrough loses it (`C104_feedthrough_false`).
* **C105** inverse_state_trajectory recovers a constant drive from the state before and after. *Plan:* Model: `InverseTrajectory`, with the entrywise integrals as antiderivatives. Proof: the primitive of the matrix exponential gives a trajectory, uniqueness of solutions; for the resonator sine and cosine are trajectories that return to zero. **Status:** proved. The quadrature is taken as exact; `np.linalg.inv` has a result only for a nonsingular matrix.
* **C106** unit_element_set gives distinct directions, chosen one by one to be least correlated. *Plan:* Model: `unitElementSet` (`product`, `collect`, `choose`). Invariants of the two loops by induction; counting by pairing each vector with its opposite. Specification: `correlation`. **Status:** partial. All clauses for candidates with zero last, columns for any candidates. The order of the candidates does matter: the search ends at the zero vector, so that with zero in front there is never a result (`C106_order_false`); and for M = 0 one column is returned (`C106_empty_false`).
* **C107** overcomplete_set extends the given directions by unit vectors. *Plan:* Model: `OvercompleteSet`, a relation with the optimiser as a parameter. Induction over the appended columns; a dimension argument gives an orthogonal direction, so that the smallest cost is zero. **Status:** proved. Orthogonality is for an optimiser that finds a global minimum (`Exact`); the other clauses for any optimiser that does not return zero.
* **C108** A sine-wave modulated system is a time-invariant system in the rotating frame. *Plan:* Model: `SineMod` with the shuffles and the rotation matrix as assigned. Specification: `quarterTurn`, `turn`, `turnNeighbours`. The shuffled rotation is a turn of pairs (`rotated_eq`), whose derivative and commutation give the equivalence. **Status:** partial. Proved for as many controls as states, and for chains of one or two oscillators. With fewer controls the sliced rotation matrix is not a rotation: for at most half as many controls as states they are multiplied by a cosine and have no effect where it is zero (`C108_fewer_false`). For longer chains see C109.
* **C109** The modulator rotates the quadrature pairs of the synthesised systems. *Plan:* The pairs that are rotated are computed from the shuffles for every number of states (`pairs`), and compared with the two layouts. **Status:** partial. Right for neighbouring states if there are two or four states. False for neighbouring states from six states on, and for the bandpass layout from four states on.
* **C11** Control decisions follow the sign of the observation at the clock phase and nothing else changes. *Plan:* `control_update` as a fold over a list of (t, observation); induction over histories. **Status:** proved. Exact arithmetic; np.allclose with its default relative tolerance is part of the model.
* **C110** demodulate moves the spectrum of a signal down by Omega. *Plan:* Model: arrays with numpy broadcasting. Specification: the discrete-time Fourier transform `dtft`. Proved by moving the exponential into the sum; the default axis for two-dimensional signals is refuted. **Status:** partial. Proved for one-dimensional signals and for two-dimensional ones whose time axis is the last. With time along the first axis (the default axis=0) broadcasting is along the wrong axis: an exception, or a wrong or square result (`C110_columns_false`).
* **C111** decimate keeps the signal below half the new rate. *Plan:* Model: Fourier resampling as in scipy (bins kept, inverse transform, scaling). Specification: `periodic`, a signal given by its Fourier coefficients at any real time. Proved by orthogonality of roots of unity. **Status:** partial. Proved for signals without a component exactly at half the new rate; every DSR-th sample if DSR divides the length. Otherwise the samples are len/(len//DSR) apart (`C111_false`), so that the time axis is stretched.
* **C112** NumpySimulator replays recorded control signals. *Plan:* Model: source, items and position of the iterator. Proved by induction on the calls. **Status:** partial. Proved for arrays and .npy files. A .npz file yields the names of its arrays instead of control vectors, and the class has no `__iter__`, so that a for loop raises TypeError (`C112_false`).
* **C113** NGSpiceSimulator reads one control vector per falling clock edge. *Plan:* Model: the loop of `parse` with its trigger, and the lazily initialised iterator. Specification: `edges`, the list of time points at which the clock has become low. Proved by induction on the time points. **Status:** proved. What ngspice writes is an arbitrary waveform. When there are fewer edges than vectors the remaining vectors are zero.
* **C114** The test bench applies the input signals, the supply and the clock. *Plan:* Model: the sources, their connections (by the connection model of C51) and the printed parameters. Specification: the waveforms of ngspice sources as real functions, and Kirchhoff's voltage law. Proved by identifying the nodes of every source. **Status:** partial. Supply, common mode and clock as stated (the clock is late by half a transition time, and its duty cycle and phase are ignored). The input is right without offset and phase; an offset arrives doubled (`C114_offset_false`) and a phase in radian is taken as degrees (`C114_phase_false`).
* **C115** The k-th control vector of a circuit simulation belongs to the k-th clock period. *Plan:* Combines C113 and C114: the clock's level as a function of time gives the selected samples as the first at or after each falling edge, preceded by the one at time zero. **Status:** partial. False: the clock is low at time zero, so that vector 0 is the initial state before any decision (`C115_false`) and all others are late by one; the vector of the last period is dropped. Proved: vector k+1 is read at the first time point after the clock has fallen in period k.
* **C116** A Butterworth analog system is the Butterworth filter that was asked for. *Plan:* Model scipy's prototype and frequency scaling, then the constructor through zpk2abcd; poles as roots of unity, conjugate patterns realised exactly (C26), product of the distances from the poles. **Status:** proved. Exact arithmetic; scipy's prototype is modelled, not trusted as a black box.
* **C117** A Chebyshev type I analog system keeps its pass-band ripple. *Plan:* As C116; the poles are the roots of T_N(2x^2-1)+cosh(2N mu), found by polynomial interpolation; the ripple bounds from |T_N| <= 1 on [-1, 1]. **Status:** proved. Exact arithmetic; rp = 0, where the prototype divides by zero, is outside the statement.
* **C118** A Chebyshev type II analog system reaches its stop-band attenuation. *Plan:* As C117 with inverted poles and zeros on the imaginary axis. Two pole pairs can have the same imaginary parts; then an admissible sorting separates the pairs and the constructor raises (negation), otherwise proved. **Status:** partial. False at attenuations where two pole pairs have equal imaginary parts (witness of order four); proved for all others.
* **C119** The LC frontend's netlist realises the ladder its models describe. *Plan:* The constructor branch by branch (Model/LC.lean): the four calls of AnalogSystem, the slices, all parts and connections. The ladder is specified by its physics (Spec/LC.lean: Ladder), the netlist by device laws and Kirchhoff's law. Proved: which arguments are accepted; the extended model is the ladder with Rin, 2L and its own gains; the behaviours of the netlist are exactly those of the ladder with 2 Rin and half the magnitudes of the gains (both directions). The property itself is false: for no accepted parameters does the netlist follow the extended model (C119_false, the input passes two resistors), and for M >= 2 the exposed model drops the inductor currents so that even solutions of the extended model violate it (C119_reduced_false). **Status:** partial. false as stated: netlist = ladder with 2 Rin and |gain|/2 (proved as an equivalence), extended model = ladder with Rin and gain; the exposed M-state model drops the inductor currents; supplies and common mode are not constrained beyond Kirchhoff's law at the capacitor nodes
* **C12** Excess control-loop delay applies the previous decision before t_delay and the current one from then on. *Plan:* State with current and old decisions; induction over histories, separate spec by history lists. **Status:** proved. Histories with reset are covered by C12_no_delay and, after the next update, C12_contribution.
* **C120** The LC frontend's control gains do not depend on gm and fit the step response. *Plan:* _exponential_decay with its derivative functions and the step; solve_ivp is a parameter that is assumed to return the end of a solution from zero whenever one exists (ExactSolver; such solvers exist). Existence by the exponential of an augmented matrix, uniqueness by Gronwall; the denominators are positive by an energy argument (the energy of the deviation from the stationary state falls strictly). **Status:** proved. numerical errors of solve_ivp are not modelled
* **C121** The fixed-point FIR filter stays within one step per tap of the floating-point one. *Plan:* Model the two coefficient loops with the conversion in each step and the conversion of the accumulator; show by induction that the integer taps are the truncated floating-point taps; bound the error of the sum by the triangle inequality. With an offset the claim is false: the offset is added to the integer accumulator. **Status:** partial. proved for filters without offset; with an offset the claim is false of the code (C121_offset_false), C121_offset_partial states what an offset does: it is divided by the scale
* **C122** The exported C headers and Rust modules hold the filter. *Plan:* Model the text character by character, including the formatting of integers and of numbers in scientific notation with 17 decimals; specify a separate reader for the two languages; prove reader(writer) = taps by induction over the lists and an error bound for the decimal digits. Numbers of formats wider than 32 bits do not fit the declared int: prove the negation. **Status:** partial. the contents are proved for all filters; that the numbers fit the declared type is proved for formats of at most 31 bits and false of wider ones
* **C123** Impulse response and transfer function of a FIR filter describe its estimates. *Plan:* Model the reversal of the taps, the frequency grid and the real discrete Fourier transform as sums; specify the frequency response independently; reindex sums. The returned transform is taken of the taps in stored order: prove that it is the conjugate times a delay, and that it is not the response itself. **Status:** partial. the returned transform is the conjugate of the response times a delay of K3 - 1 samples (same magnitude), not the response
* **C124** number_of_filter_coefficients counts the non-zero taps. *Plan:* Model the comparison and the sum; compare with the cardinality of the set of non-zero taps. The code counts positive taps only: prove when the two agree and a filter for which they do not. **Status:** partial. the code counts the positive taps; equality holds exactly when no tap is negative
* **C125** A netlist carries every sub-circuit definition it needs exactly once. *Plan:* Trees of devices and sub-circuits with the loops of the code; an occurrence relation as the specification; mutual structural induction over trees and lists of trees. **Status:** proved. Definitions are taken as given texts of an arbitrary type; NetlistElement is a leaf.
* **C126** The check of sub-circuit names rejects ambiguous hierarchies. *Plan:* The stored lists are part of the tree and the check returns the tree with the lists it stored. Invariant `Current`: a stored list is empty or lists exactly the names inside. Under the invariant the check fails exactly on trees where a circuit contains one of its own name, and it preserves the invariant. Two witnesses show what is missing: equal names beside each other, and lists that went stale. **Status:** partial. False of the code: two sub-circuits beside each other with one name and two definitions pass; a circuit changed after a check is judged by the old lists.
* **C127** Every device in a netlist finds the model it was given. *Plan:* Mutual induction over the tree. Two models compare equal by kind and name only, so the first one met is kept. For the digital control all models of one name agree and every device keeps its own. For the dither control the converters and flip-flops of the random part lose theirs to those of the comparators. **Status:** partial. False of the code for the dither control: the delays 1e-15 given to its clock converter, flip-flops and output converters are never written; the comparators' models with T/1000 and T/100 are.
* **C128** A clocked comparator holds the sign of its input at the clock edge. *Plan:* The netlist is computed from the constructor's statements; laws for the bridges and the flip-flop that only speak away from thresholds; the clock edge is carried through the first bridge, the data through the second, and the flip-flop and output bridges give the conclusion. Combined with C94. The comparator with a single output prints two unconnected nodes under one name. **Status:** partial. Proved for the comparator with differential outputs, the only one the package uses; false of ClockedComparator, whose data node and output port are both called OUT. Laws of the XSPICE devices are assumed as specified, set and reset inactive, equal rise and fall delays.
* **C129** A multi-phase control circuit decides every control at its own phase of the clock. *Plan:* The constructor's statements are modelled on top of the comparators of C94 and C128, with a device law for the delay (output is the input `delay` earlier); the netlist is computed and the decision of C128 is shifted. The circuit of a dithered multi-phase control looks up the impulse responses under the wrong numbers, which is proved to raise. The delay prints its nodes in the order IN, OUT, CNTRL; whether ngspice's own `delay` expects that order cannot be checked in the sandbox, the law follows the names in the code. The start-up of the delay is ignored, and so are the phases of the random controls themselves, which the circuit clocks by CLK. **Status:** partial. The phases are proved for every control the constructor accepts. Partial because a dithered multi-phase control always raises IndexError (C129_dither_false). Device laws are assumed as specified; the delay obeys the names of its terminals.
* **C13** Control vectors handed out stay what they were. *Plan:* False (view of the live array). Heap model; negation for the raw iterator, positive theorem for extended_simulation_result (C30). **Status:** partial. False: control_signal() hands out a view. Exact behaviour proved: a held vector shows the current signal until the next reset and is final afterwards.
* **C130** A netlist can be included as an element exactly when it is one readable definition, and printed definitions can be read back. *Plan:* `str.splitlines` and `str.split` are modelled character by character and proved to compute inductively specified lines and words; the parser is then equivalent to a relation stated with those. The printed definition is shown to be readable, for names in lower case without a dot, terminals in upper case and elements whose lines are not blank. A blank line, or a name that ends in .cir, are proved to break the reading. **Status:** partial. Acceptance and errors are complete for texts over characters with ASCII case mapping. The round trip needs a name in lower case without a dot, terminals in upper case and no blank line in an element's text; a blank line anywhere is refused with IndexError (C130_blank_false) and a name ending in .cir is taken for a file (C130_file_false). Sub-circuits with parameters are not covered by the printed text.
* **C131** The random controls of a dither circuit follow the pseudo-random sequence of the dither control. *Plan:* The file is a list of times and states in a directory that is a function from names; creations and deletions are operations over which the content of the file is proved to last by induction. A law for the digital source joins the laws of the comparators of C128, and the decision of a random control is derived from the netlist of C91. Findings, each proved: an existing file is not replaced, so a second source under the same name reads the first one's sequence and loses it when the first one is collected (`C131_stale_false`); with two random controls whose rows differ no potentials obey the laws, as the flip-flops share one output node (`C131_two_false`); with several random controls the simulation takes row kR+m where the circuit takes row k (`C131_nominal_false`). Not modelled: the text of the numbers in the file, the threshold handling of ngspice's converter when, as in the test benches, the threshold equals the low level of the clock, `turn_off_dither`, which the circuit ignores, and the sub-circuits of the dither control. **Status:** partial. Acceptance, the file of a source under a free name and the decision of a random control are proved; the property as a whole is false: stale files (C131_stale_false), two random controls (C131_two_false) and the rows drawn by the simulation for several random controls (C131_nominal_false). Device laws are assumed as specified.
* **C132** filter_lag() tells which sample an estimate belongs to, before and after warm_up(). *Plan:* The lag is an integer beside the state of the estimator; warm-up is the two loops around `__next__`. Induction over the loop gives the number of estimates dropped; the estimator theorems (FIR, IIR, batch, parallel refine the reference estimate) then name the sample. The two negations are concrete. **Status:** partial. The lag tells the sample for every history of next() and warm_up() without an argument and without downsampling; warm_up(samples) and downsampling are refuted. The convention that sample k belongs to time (k+1)T is not modelled.
* **C133** demodulate() turns every estimate back by the phase of the modulation. *Plan:* demodulate is modelled as the Kronecker matrix applied to the estimate with the counter of estimates beside the state; the specification is multiplication of complex numbers by exp(-i n f). **Status:** partial. Refuted: the same sample is demodulated with another phase by a FIR filter than by a batch estimator, because the counter counts estimates and not samples.
* **C134** Noise with the powers of white_noise_sensitivities() meets the target SNR. *Plan:* The general transfer function is an arbitrary function of the frequency (instantiated with the modelled one in the negation); the grid, the row maximum and the broadcasting of NumPy are modelled, the integration is the exact integral. The shares follow by algebra; the negations are an integrator with gain one half and a constant gain with two inputs. **Status:** partial. Equal shares with one input are proved; that the target SNR is met and the case of several inputs are refuted.
* **C135** max_harmonic_estimate() bounds the harmonics of the states over the band. *Plan:* logspace over natural logarithms is modelled as 10 to the interpolated exponent and shown to be the geometric grid raised to ln 10; norm(ord=1) of a matrix is the largest column sum. **Status:** partial. The normalisation is proved; that the gains are those of the band, and that the amplitudes of all states together are normalised, is refuted.
* **C136** Interpolated signals pass through their samples. *Plan:* The evaluation loop is modelled as a fold; at the samples every added term is a zero of sinc, linearity is by induction over the loop, and the negation is the sample vector 0, 1, 0 at time T/8. **Status:** partial. The values at the samples and linearity are proved; that the values in between interpolate the samples is refuted (the impulse response is evaluated at t -/+ i T instead of at the distance to the sample).
* **C137** A recursive adaptive filter is trained on the equation it predicts with. *Plan:* The rearrangement of the data, the fit with an exact solver (a function parameter; that one exists is proved) and the search are modelled on top of the model of the FIR filter. A row of the training system is identified with the difference equation, so that the least squares property carries over; prediction follows by strong induction over time, the search by an invariant of its loop, and that lms leaves an exact filter alone by induction over batches and epochs. Findings, each proved: numpy returns no residuals for dependent columns, which the search reads as a loss of zero, so that it can take a delay that leaves an error over one that leaves none (`C137_rank_false`); complex data are fitted with conjugated inputs (`C137_complex_false`); negative delays are accepted and below -K read the input from its end (`C137_negative_false`); with K equal to the number of channels plus one the coefficients are stored transposed (`C137_square_false`). Several references are not covered, as prediction raises for them (C67). **Status:** partial. Proved for real data, one reference, non-negative delays and K different from the number of channels (plus one); false for the delay search with dependent columns, complex data, negative delays and K equal to the number of channels plus one. Exact solver assumed.
* **C138** Solver fallback for the Riccati equation. *Plan:* Model: `care` (the try/except cascade over the outcomes of the solvers), `bruteForceCare` (`bruteTerm`, `bruteStep`, `AllClose`, `bruteLoop` with the time limit as a number of rounds). Specification: `IsCare`, `IsStabilising`. Proof: the symmetrised result is symmetric in every branch; a solution is a fixed point of the step; for the integrator, whose equation is 1 - V² = 0, induction over the rounds bounds the product of the factors 1 - 2 tau by one minus the geometric sum of the step sizes. Finding: the step size starts at 1e-12 and shrinks by one percent per round, so all steps together are at most 1e-10; the loop stops because the steps vanish, not because the equation holds. **Status:** partial. Symmetry and the treatment of exceptions in all cases; a solution whenever the solver used returns one, where the brute force solver is started from an exact solution. That the brute force solver improves on its start is refuted: for the integrator it ends from every start in [0, 1) with at least the fraction 1 - 2e-10 of the initial error (`C138_brute_false`). Exact arithmetic; the solvers of SymPy, SciPy and NumPy are parameters.
* **C139** Verilog-AMS modules behave as the ngspice models. *Plan:* Model: `summerText`, `summerPorts`, `integratorModule`, `comparatorLevel` (what the templates print, as tokens), `Module.instance` (nodes connected to ports by position), `summerNgspice`, `diffSummerNgspice`. Specification: `parse`/`value`, a reader of Verilog-AMS expressions with precedence that gives a signal as the value, and the code models of ngspice. Proof: induction over the inputs with the invariant that the sum of finished terms and current product grows by each weighted input. Findings: without any gain the text is `g*() + o`, no expression; a negative input offset of an integrator is printed with two minus signs; the limits of an integrator are not printed; the low and the undefined level of the comparator are exchanged; a differential summer uses the module of the plain summer, whose ports do not fit. **Status:** partial. Proved for summers with a gain that is not zero and for integrators without negative offset (initial value and limits aside). False for summers without any gain (`C139_zero_false`), for differential summers in Spectre (`C139_differential_false`), for integrators with a negative offset (`C139_offset_false`) or at their limits (`C139_limits_false`), and for the comparator below its upper threshold (`C139_comparator_false`). The reader of Verilog-AMS expressions is a specification of ours; declarations and the initial block are not modelled.
* **C14** reset() makes a digital control indistinguishable from a new one. *Plan:* False (old decisions are not reset, dtype changes). Negation; partial: with t_delay = 0 or after one further update behaviours agree. **Status:** partial. False: old decisions survive reset (visible with t_delay > 0), and a multi-level control truncates after reset. The rest of the behaviour equals that of a new control.
* **C140** Open terminals of a hierarchy are found and can be led upstream. *Plan:* Model: `Elem` (devices and sub-circuits with terminals, connected terminals and parts), `check` (the warnings), `upstream`. Specification: `Within` (an element at any depth), `InnerOpen`, `OuterOpen`. Proof: mutual induction over the hierarchy. Finding: connect_upstream() looks up an attribute `terminals` that sub-circuits do not have and fails with an AttributeError whenever there is something to do; check_connections() documents a ValueError but only logs. **Status:** partial. The warnings in full. connect_upstream() does nothing if no terminal is open, and raises an AttributeError otherwise (`C140_upstream_false`). The documented ValueError of check_connections() is never raised: the statements are comments in the code.
* **C141** A test bench wires supplies, clock, inputs and observer to the frontend. *Plan:* Model (`Model/Bench.lean`): the look ups and connections of the four constructors in their order, including the self connections made when a frontend is added that is already there; `_sanity_check`. Proof: an invariant of the connections of a star some of whose leaves have been connected with themselves before (`Lemmas/Loose.lean`): such a leaf keeps a port of its own until it is attached. The state space test bench cannot be built (`C141_statespace_false`). What the constructors of the frontends do is C52, C53, C94 and C119. **Status:** partial. Every test bench but the state space one: its constructor reads a frontend that is never set and always raises AttributeError.
* **C142** What is lost in a conversion depends on the observed outputs, not on the decisions. *Plan:* Same model as C95: the exact filter coefficients and the batch estimator; a run of the converter is a solution of the differential equation of the analog system with the contribution of the control. The least squares theorem is refined to an identity (Pythagoras): the cost of any explanation is the cost of the estimate plus the cost of the difference. The difference of two runs explains the difference of the decisions. **Status:** proved. Exact arithmetic; positive definite solutions of the Riccati equations, as C98 shows for observable and controllable systems; no delay of the control.
* **C143** Simulated and then estimated, a bounded input comes back up to a bounded mean error. *Plan:* Composition of the models of the simulator (C17, C20, C62), the control, the filter coefficients (C95) and the batch estimator (C32). The exact trajectory of a simulation explains its decisions; C20/C62 bound it; C142 turns the bound into a bound of the error; C32 identifies the returned values. **Status:** proved. Exact arithmetic: exact solutions of the differential equations in the simulator and of the Riccati equations with positive definite solutions (C98); the numpy backend without mid_point. The bound is in terms of the outputs of the analog system driven by the error, which is what the filter minimises; at frequencies where the gain of the analog system is large this makes the error small.
* **C144** The filters of chains and leap-frogs are unique, stable and decay, whichever Riccati solver finds them. *Plan:* Same model as C98 and C143. Exponentials of Hurwitz matrices decay (decomposition into generalised eigenspaces); from that uniqueness (the difference of two solutions intertwines the closed loops) and positive definiteness (Lyapunov function) of stabilising solutions. Reachability of the integrator networks by the Hautus test along the chain. **Status:** proved. Exact arithmetic. That the solver returns a stabilising solution is assumed (scipy.linalg.solve_continuous_are is documented to do so; C98 shows it for the analytical solver whenever it succeeds); the existence of a stabilising solution is not proved.
* **C145** Longer filters approach one ideal estimate geometrically, with every estimator. *Plan:* Model of the estimators of C31-C33 over the real numbers. Powers that tend to zero are bounded by C r^k (a power of norm at most 1/2 and division with remainder); tails of the sums are geometric; limits exist by completeness; C31-C33 identify the returned values. **Status:** proved. Exact arithmetic, no downsampling, no mid_point, no offset.
* **C146** What an adaptive filter reports about itself is what its predictions do. *Plan:* Model of impulse_response and transfer_function with numpy's broadcasting of the stored transform, and of the quotient evaluated for the recursive filter. The predictions are those of C44 and C67. A cosine is the real part of an exponential, so its correlation with the taps is the conjugated transform times the exponential. **Status:** partial. Magnitudes, frequencies and values are right for one reference and the default number of points. False: the phases have the opposite sign and the impulse response is in reversed order because predict correlates; any other number of points raises or returns values of other frequencies; the report of the recursive filter is the quotient of the spectra of the forward and feedback taps (C146_recursive_partial), without the leading one of the denominator.
* **C147** The filter coefficients exist and are determined by the converter. *Plan:* The specification of a stabilising solution (IsStabilising), the two observability conditions, and the relation Numerical (the numpy backend with exact solvers). Existence of the stabilising solution by Newton's iteration: Lyapunov equations with a stable matrix are uniquely solvable, the iterates decrease and stay positive semidefinite, so they converge (Lemmas/CareExists); the first iterate comes from a shifted Lyapunov equation. Existence of Bf and Bb by variation of constants for measurable bounded waveforms that are continuous from the right (Spec/Waveform, Lemmas/Existence), uniqueness by Gronwall's inequality, and W by invertibility of Vf + Vb. Combined with C144 for the two topologies and with C143 for the simulated converter. **Status:** proved. for the numpy backend without mid_point, with exact solvers of the Riccati and differential equations; that the iterative solvers of SciPy reach the solution in floating point is not modelled
* **C148** A simulation runs for ever exactly if the set-up fits together. *Plan:* Model of C28 (Cfg, Period, Run). Specification Fits in terms of the matrices of the analog system. Waveforms that are measurable, bounded and continuous from the right are closed under sums, products, delays and switching at a time, so the right-hand side of every period is one; variation of constants gives the trajectory, and the runs follow by iteration. The converse from the exceptions of the observation and the derivative. Combined with C147. **Status:** proved. solve_ivp is an exact solver as in C28; thermal noise is the subject of C154
* **C149** The converter makes no DC error if its first integrator does not leak. *Plan:* Model of C28, C31, C32 and C96. The sums over a horizon of the forward and backward means satisfy the steady-state filter equations up to bounded terms at the ends (the filters carry constants to constants, C96, and their powers vanish, C144); the Riccati equations turn this into A x + B u + Gamma s being bounded for the sums, and w removes the state. On the analog side w x is integrated over each period and telescopes. Passing to the estimators by C145. For leap-frogs w is computed by a two-step recursion. The leaky integrator is computed: its control signals are all 1 and the filters settle exponentially. **Status:** proved. C149_leaky_false shows that the condition on the first integrator cannot be dropped; exact arithmetic, exact solver and coefficients of the numpy backend
* **C15** Constructing a digital control succeeds exactly for valid phases. *Plan:* Decision logic; iff proof over lists. **Status:** proved.
* **C150** The unit of time does not matter. *Plan:* Models of C28, C48, C80, C85 and C96. `Spec/Units.lean` says what a converter with another unit of time is. A trajectory with its time rescaled solves the rescaled differential equation (chain rule for one-sided derivatives), decisions and waveforms are compared branch by branch, the Riccati equation is homogeneous of degree two in the rates, stability is invariant under positive factors, and the synthesis functions are followed through every branch. **Status:** proved. exact arithmetic; C150_converter (from specifications to simulations) is for controls that decide at the start of the period (digital_control other than switch_cap); coefficients of the numpy backend
* **C151** The choice of state variables does not matter. *Plan:* Models of C28, C95, C96 and of the estimators. `Spec/Coordinates.lean` says what a change of state variables is. A linear map that intertwines the equations carries trajectories to trajectories and leaves the observations alone; the Riccati equation is covariant under congruence; taps, recursions and batches are compared branch by branch, the states of the iterators being related by S. **Status:** proved. exact arithmetic; FullSimulator; coefficients of the numpy backend without mid_point, for Vf + Vb invertible (automatic for stabilising solutions of reachable and observable systems); the parallel estimator is not covered
* **C152** The unit of the input does not matter. *Plan:* Models of C28, C95, C96 and of the estimators. `Spec/InputUnit.lean` says what a converter with another unit of its inputs is. Decisions and right hand sides are the same functions; the Riccati equation is homogeneous when Q and R scale together; the estimators are compared branch by branch, their results being related by the factor 1/b. **Status:** proved. exact arithmetic; FullSimulator; coefficients of the numpy backend; one common factor for all inputs; the parallel estimator is not covered
* **C153** Converters are causal and time-invariant. *Plan:* Models of C28 and C31-C33. Induction over the periods: equal states and equal inputs over a period give equal decisions and, by uniqueness of solutions of linear differential equations, equal states at its end. The number of decisions read for an estimate comes from C31, C32 and C33. **Status:** proved. exact arithmetic; FullSimulator with input signals (C153_shift also without); estimators whose iteration limit is not reached; pairs of simulations that run for ever (C148 says when they do)
* **C154** Simulated thermal noise has the covariance that was asked for and changes nothing else. *Plan:* The noise branch is modelled on top of the simulators (`Verif/Model/Noise.lean`): the Cholesky factor is specified (lower triangular, positive diagonal, product) and proved unique and to exist exactly for positive definite matrices, the values of `rng.normal` are an arbitrary sequence. With draws of mean zero and unit covariance (Mathlib's covariance; standard normal draws are shown to be such) the added vector has covariance T² S with the clock period T, because the code multiplies the deviation by T; so the claim is false unless T = 1, and also because singular covariance matrices (noise at some of the states only) are refused. What the matrix means is proved instead: the accumulated noise has density T S. Boundedness is the box argument of C20 with a margin. **Status:** partial. False of the code: the added vector has covariance T² S, not S (the Cholesky factor is multiplied by the clock period), and positive semidefinite but singular matrices raise LinAlgError. Proved: which matrices are accepted, that nothing else changes, the actual covariance and density, that both simulators agree (under the conditions of C29, which is itself partial), and boundedness under bounded noise.
* **C155** Replacing an element of a sub-circuit keeps its wiring. *Plan:* Model of C51. Induction over the terminals of the old element: connecting a fresh terminal leaves the nets of all others alone, since new nets get numbers above all numbers in use, an invariant of add and connect. Counterexamples are computed. **Status:** partial. false for the nodes of the netlist (C155_names_false) and for resistors, capacitors and inductors (C155_passive_false); the connections made before an exception are not modelled
* **C156** The numbering of inputs and controls does not matter. *Plan:* Models of C28, C26, C95, C96 and of the estimators. `Spec/Numbering.lean` says what renumbering is. Each function of the simulator, of the coefficient computation and of the estimators is shown to commute with permutations; the states of the iterators are related by the permutation. **Status:** proved. exact arithmetic; FullSimulator; uniqueness of the coefficients for the numpy backend without mid_point; the parallel estimator is not covered
* **C157** A printed component is read as the component it is. *Plan:* `Model/Cards.lean` has one constructor per class of components and prints what the templates print. `Spec/Cards.lean` is a reader of ngspice text, independent of the printing, and says what was asked for. Reading a printed line is computed word by word; texts of several lines by splitting at line breaks. **Status:** partial. names and values without blanks and special characters; the templates are modelled by what they print; how Python prints numbers is a parameter; the full property is refuted by the `_false` theorems
* **C158** An estimator that is handed another control signal. *Plan:* `Model/Reuse.lean` gives the effect of setting an iterator on the states of the four estimators. `Spec/Reuse.lean` defines the signal that reads like the first one for `n` vectors and then like the second. The four `__next__` functions are shown to read their iterator one element after the other and to depend on nothing else of it (`Reader`), whence the equality of all later results. Settling, memory and fading follow from the closed forms of C31 and C33; three witnesses refute the restart. **Status:** partial. Reading the second signal as the continuation of the first is proved for all four estimators, all histories and all signals, exceptions included. The restart is false: a batch estimator whose signal has ended raises StopIteration for every other signal (`C158_batch_false`), the iteration limit is not counted anew (`C158_limit_false`), and the call that meets the end of a signal rotates the window of the FIR filter and of the IIR filter so that the next estimate follows on the wrong vector (`C158_exhausted_false`, `C158_iir_exhausted_false`).
* **C159** transfer_function_matrix tells what happens to a sinusoid, numerically and symbolically. *Plan:* The numerical path is modelled with `np.linalg.pinv` as a parameter assumed to be the Moore-Penrose inverse (whose existence is proved for every matrix), the symbolic path over the field of rational functions with the simplifier as a parameter that keeps values. Away from resonances both are the one response; a finite symbolic answer is a response and the limit of the neighbouring answers; where no response exists the symbolic answer is not finite. With general=True the columns are the responses to sinusoids added to the derivatives of the states (by the results for the system with one input per state). The numerical path is refuted at resonances: for every chain of integrators with a lossless first integrator it reports zero at zero frequency, and the estimator's signal transfer function is reported as zero there although it is at least `1 - eta2 (omega/beta)^2` next to it. **Status:** partial. The numerical answer is a response wherever there is one; at resonances without a response it is a finite number all the same (zero for every chain of integrators at zero frequency), and at resonances with cancelled poles it differs from the symbolic answer. Exact arithmetic; sympy's simplify is a parameter that keeps values.
* **C16** Every control is updated once per clock period of a simulation. *Plan:* False for any control with phase beyond the tolerance (simulator only updates at 0). Negation; partial for zero phases. **Status:** partial. False for any phase away from the start of the period: such a control is never updated. Proved for phases within tolerance of the start.
* **C160** Waveforms read back from a circuit simulation. *Plan:* Model/Waveforms.lean: the groups of highlighted terminals, the save list, the look up of a vector up to case, `np.vstack`, both getters and the vectors `parse` loops over; a raw file is an arbitrary list of named vectors. Spec/Waveforms.lean: what ngspice records (every saved vector is there, every vector is the waveform of its name) and what a table is. Proved for all sizes and files by membership in the save list; distinct headers by injectivity of decimal numerals; the state equation through C52. **Status:** proved. A raw file with a single time point and a missing vector (numpy stacks the missing value) is not covered; ngspice itself is assumed to record the vectors it is told to save.
* **C161** Filters designed from a specification meet it. *Plan:* Model the parts of scipy that IIRDesign calls: band type, band transforms, and for Butterworth filters the order; elliptic prototype and other orders are parameters. Prove the transfer function of every transformed prototype (frequency transformation), the specification for Butterworth low-pass, high-pass and (narrow) band-pass filters, refute it for band-stop filters without zeros in the prototype and for Bessel filters. **Status:** partial. Butterworth low-pass, high-pass and band-pass filters meet their specification (the band-pass if it is narrower than the square root of two times its centre, which rules out two pole pairs with the same imaginary parts); the others have the transfer function of scipy's prototype at the transformed frequency under that condition on poles and zeros; Cauer keeps what scipy's prototype keeps. False for Butterworth and Chebyshev type I band-stop filters of order two or more, which are rejected, and for the documented Bessel type, which always raises ValueError.
* **C162** Symbolic state equations determine every trajectory. *Plan:* Model the equations as lists of summands (Model/SymbolicEquations.lean). Specification: solving the equations with one-sided derivatives, the driven state equation, and trajectories of `derivative` (Spec/SymbolicEquations.lean). Equivalence by computing the sum of the summands; superposition by adding derivatives, with the matrix exponential for the homogeneous part; uniqueness by Gronwall. The documented list of functions is refuted: one function is returned. **Status:** partial. Everything stated is proved, except that the second returned value is a single function (the last) instead of the documented list, which is refuted for every system with two or more states. sympy's matrix_exp is taken to be the matrix exponential; sympy's rewriting of expressions is not modelled.
* **C163** Negated input gives the complementary bits and the negated estimate. *Plan:* Specification: the mirrored set-up, absence of ties, the mirrored simulator state (Spec/Mirror.lean). One period is mirrored because observation, contribution and derivative are odd and a comparison without tie is reversed by negation; runs follow period by period, any mirrored run by determinism (C28). Estimates through the closed forms of C31, C32, C33, which are linear in 2 s - 1. The tie: an integrator at rest without input, its own mirror image, decides 1. **Status:** partial. Everything stated is proved for simulations without ties; that the symmetry fails on ties (the property without the proviso) is refuted by an integrator at rest. Solvers exact, no thermal noise; before the first decision the bits are those of the start.
* **C164** Converters stacked into one do not disturb each other. *Plan:* Specification: selection matrices and the part's set-up, control, state and coefficients (Spec/Parts.lean). The selection matrix intertwines the block-diagonal matrices of the stack with those of the part; the difference of P V and v P solves a Sylvester equation with stable left and right factors, hence vanishes (integral / decay argument), so the stabilising Riccati solutions separate, and exponentials, control integrals and the output matrix follow. Simulation period by period with C23, uniqueness with C28, estimates with the closed forms C31, C32, C33. Direct path: an integrator with B_tilde, two of them stacked. **Status:** partial. Everything stated is proved for parts without direct path from the inputs to the control observation; with one the property is refuted by two stacked integrators. Solvers exact, no thermal noise, coefficients of the numerical backend with analytic waveforms.
* **C165** A conversion recorded to files and estimated later gives the estimates of the live converter. *Plan:* Model: read_byte_stream_from_url (Model/Replay: bodies are byte lists, iter_content cuts them into words, PEP 479 at the end) and the iterator protocol of a generator as the source of an estimator (items, once the ending exception, then StopIteration). Spec: `recording`, `Storable`, `ending s n e`, `live s`. The storage theorems show that the composed generators equal `ending s n e` as functions (C165_file, C165_files, C165_url); the estimator theorems hold for every `ending` source, by the prefix-reading lemma of C158 and the closed forms C32/C33, with the exact behaviour at and after the end. Simulated converters are storable (C165_converter). False parts: several files read from disk, and the exception that ends a file. **Status:** partial. Every recorded vector comes back from one file and, over http, from any number of files, and the estimates are those of the live signal. False: of several files read from disk only the first is delivered (`C165_files_false`), and the end of a file is struct.error instead of the end of the iteration (`C165_end_false`). The exact behaviour at the end is proved for all estimators: the batch estimator pads only when exactly one vector is missing, because a generator raises RuntimeError only once (`C165_batch_generator`).
* **C166** The netlist text of an op-amp frontend, read by a circuit simulator, is a circuit of the given system up to the rounding of the printed values. *Plan:* Model `partText`, `subText`, `opampText` (Model/FrontendText.lean): the parts and wires of `opampFrontend` printed with the element templates of Model/Cards.lean. Specification Spec/FrontendText.lean: `readDef` turns the statements read from the text into a definition of named elements, in small letters. Proof: every part is read as its line with the values that are read (`part_read`), hence the text as the netlist (`sub_read`); folding the case is injective on the names of the frontends, so behaviours carry over both ways (`obeys_small`, `leaving_small`, `obeys_push`); a netlist with rounded values is the netlist of a system with other entries (`oaNet_seen`), whose distance is bounded by `ofRes_spec`; then C52 and its converse. **Status:** proved. Text to circuit to state equation, both directions, for any number format with relative error below one on the occurring values; C166_exact for values read without error. The definitions of the op-amp and of the digital control are those of C52 and C54.
* **C167** States sampled together with the control signal of a circuit simulation. *Plan:* Model `RawStates.item`, `stepStates`, `parseStates`, `hstack`, `sampledStates` (Model/Sampled.lean): the tuple of one time point with its slices, the loop with both arrays. Proof: induction over the time points together with the loop of Model/NgSpice.lean, of which the trigger and the index are known (`parse_inv`); clock edges as in Spec/NgSpice.lean. Negations by a waveform with one edge and by evaluating `hstack`. **Status:** partial. samples of the positive terminals at the clock edges are proved; the rows are not the states (C167_state_false) and the table is never returned (C167_table_false)
* **C168** The netlist texts of a Gm-C frontend, read by a circuit simulator, are a circuit of the given system up to the rounding of the printed values. *Plan:* Model `multiOtaText`, `gmcText` (Model/FrontendText.lean), read by `readDef` of Spec/FrontendText.lean. Proof: as for C166 each text is read as its netlist (`sub_read`, `multiOta_read`); a nested definition in small letters has the same terminal behaviour (`obeysDef_small`: Kirchhoff's law at names that are no node is trivial, and folding is injective on the others); the rounded netlists are those of other entries, capacitance and gain (`otaNet_seen`, `gainNet_seen`, `gmNet_seen`) with the distances of `ofGm_spec` and `leak_close`; then the behaviour of the Gm-C circuit of C53 and C90 and its converse. **Status:** proved. Texts to nested circuits to state equation, both directions, finite and infinite gain, for any number format with relative error below one on the occurring values; C168_division is the second error; C168_exact for values read without error. The definitions printed for the digital control are those of C54 and are not part of the texts here.
* **C169** Range of the estimates and effect of a wrong control bit. *Plan:* Model: `FIR.next`, `FixedFIR.next` (as for C31 and C121), filters with arbitrary taps. Proof: `fir_call` gives the estimate as a sum over the window; bounding and choosing the signs of the stream (`worst`) term by term; the fixed-point filter is that sum behind `toFloat`; the difference of two windows is one entry. **Status:** proved. C169_fixed is an equivalence; the failing stream is constructed. FIR filters only; exact arithmetic.
* **C17** The multi-level quantiser is a monotone nearest-level quantiser. *Plan:* Levels and references over a linearly ordered field; induction over levels, and over histories of calls for the signal and decision of a control (`Verif/Props/MultiLevelHistory.lean`). **Status:** proved. Exact arithmetic. C17_history gives signal and decision after every history of updates and resets; after a reset the levels are stored as integers (see C14_multilevel_false).
* **C170** A circuit simulation of the closed loop follows the package's own simulation. *Plan:* Model: the netlists of C52, C53, C94 and C128 joined (`Loop`), `Run` of `FullSimulator` as for C16. Spec: `deviation`, the recursion of the bound. Proof: the digital control draws no current (`loop_senses`), hence the state equation of C52/C53; the comparators decide as in C128 (`loop_control`); a Gronwall estimate per stretch (`stretch`, `window`, `drift`) bounds the deviation over one period; induction over the periods (`follow`): clear observations give equal decisions, equal decisions give the next bound. Limit: the bound is linear in the largest of ramp and initial deviation. Hypotheses met: every solution of the state equation with the laws of the comparators belongs to a behaviour of either netlist (`loop_realisable`, `loop_realisable_gmc`). **Status:** partial. The partial theorems assume that controls are not observed directly (At = 0); C170_observation_false shows the simulator inverting every decision although the control applied at the decision would keep it. Comparators as in C128; exact solution of the differential equations on both sides.
* **C171** An ngspice simulation of a test bench delivers the control vectors of the package's own simulation. *Plan:* Model: the sources of C114, the recording and parser of C113 and C115, the circuit of C170 (`Loop`) with the devices of a test bench (`benchTiming`), `Run` of `FullSimulator`. Proof: the pulse source is a clock with an edge at every kT + tt/2 (`clock_low`, `clock_high`), the sources give the inputs (`input_voltage`), so that circuit and simulation are set up alike (`bench_alike`) and C170 applies; vector k+1 is read in the low phase of period k (C115), after delay and ramp and before the next edge, where the outputs are at the supplies (`bench_vectors`). Hypotheses met: the circuits of C170 can be raised to the common mode of the test bench (`loop_realisable_mid`, `loop_realisable_gmc_mid`); a case with the simulator started without a control. **Status:** partial. The partial theorems demand that the simulator gets the voltages in units of the supply; C171_signals_false shows that this excludes giving the same signals to both. Controls are not observed directly (At = 0, see C170_observation_false). Ideal amplifiers, comparators as in C128, exact solution of the differential equations on both sides; the terminals of test bench and frontend of the same name are the same node.
* **C172** Estimates from an ngspice simulation of a test bench are those from the package's own simulation. *Plan:* Model: C171, with `circuitSource` and `ownSource` as the iterators read by the estimators of C31 and C33. Proof: FIR estimates depend on the last K1+K2 vectors only (C39), which are the same ones read one call later; the sums of the IIR estimate (C33) are shifted by one term, the last term of the past is the first vector of the circuit. Before the window is filled: the circuit of the example of C171 with a filter of two taps. **Status:** partial. Under the conditions of C171 (which is partial for the reasons given there). Equality of all FIR estimates is false (C172_first_false); with down-sampling the shift by one vector is no shift of estimates and nothing is claimed.
* **C173** A test bench with transconductors of finite gain follows the package's own simulation. *Plan:* Model: that of C90 (frontend with finite gain), C170 (loop), C171 (test bench, recording, parser) and C172 (estimators). Proof: a version of the comparison of C170 for a circuit whose matrices are not those of the simulated system (`follow_mismatch`): along the simulated trajectory the right-hand sides differ by at most a constant, Gronwall with that constant in all of the period and the effect of the ramps in a window of it, induction over the periods. The leakage is a difference of b/(4 DC_gain) in the diagonal. False without leakage: a loop with constant input whose state decays. **Status:** partial. Partial for the reasons given in C170 and C171: the observations have to be clear of zero, no direct path from the controls, exact solutions on both sides. Without the contribution of the leakage the claim is false (C173_leakage_false).
* **C174** Component tolerances: a simulation of slightly different coefficients takes the same decisions. *Plan:* Model: the simulator of C28. Specification: recursion for the deviation and the change in a row (`mismatched`, `rowChange`). Proof: Gronwall for the difference of two solutions within a period, with the mismatch along the first trajectory as a constant disturbance; the difference of the observations is smaller than the margin, so the comparators decide alike; induction over the periods. Limit: the recursion is homogeneous in the tolerance, states are bounded by compactness. Threshold: a system whose observation begins at zero, and a direct path of arbitrarily small negative gain from the input; the runs exist by C148. **Status:** partial. The observations have to be clear of the thresholds; without that the claim is false (C174_tie_false). Exact solutions of the differential equation in both simulations, FullSimulator with inputs.
* **C175** The printed frontend, as ngspice reads it, in the test bench follows the package's own simulation. *Plan:* Model: that of C166 and C168 (printed text of the op-amp and Gm-C frontends and how it is read), C170-C172 (loop, test bench, recording, parser, estimators). Proof: what is read is the netlist of another system, whose entries are close to the given ones (C166, C168; with finite gain there is a leakage too), in small letters; for a circuit simulator that does not distinguish the case its behaviours are those of the netlist in capital letters (`loop_small`); the comparison of C173 for a circuit whose matrices are not those of the simulated system, with the differences of the entries weighted by the bounds of states, inputs and controls. **Status:** partial. Partial for the reasons given in C170 and C171: the observations have to be clear of zero (false otherwise: C174_tie_false), no direct path from the controls, exact solutions on both sides. The digital control and the comparators are the circuit objects, not read from their text.
* **C176** A control signal kept as text gives the estimates of the live converter. *Plan:* The reader down to the characters: lines with universal line ends, np.fromstring with an integer type as white space, sign, digits, separator, and the cast to eight bits (`Verif/Model/CsvText.lean`). The specification is a grammar of tables (`Verif/Spec/CsvText.lean`: Numeral, Row, Table), with its own notion of the value of digits. Induction over the derivation of the row and of the table gives the items of the reader; C165's theorems about a source that ends give the estimates. np.fromstring is numpy's and is modelled after its documented behaviour: numbers beyond a C long, separators with white space and lines without any digit are not modelled. **Status:** partial. Proved for tables of numbers of at most eight bits. False for larger numbers and columns separated by blanks only (C176_range_false), for voltages with decimals (C176_voltages_false), and for the observer's own file (C176_observer_false). np.fromstring is modelled, not verified; the parallel estimator is not restated (C34 equates it with the batch estimator).
* **C177** The leap-frog design from effective bits uses a closed-form factor and needs no faster clock than the chain. *Plan:* The expression of g_i as a function of the values of its symbols, with the product, the complex modulus and the integral as in the source (`Verif/Model/LeapFactor.lean`; sympy's integration taken to be exact). The product is the Chebyshev polynomial of the second kind over 2^N (its roots), U_n^2 - U_(n-1)^2 = U_2n, whose integral over [0,1] is 1/(2n+1); induction over n. Joined with C81_in_band and C80_design; (2N+1)(1 + ... + 1/(2N+1)) <= 4^N by induction. **Status:** proved. Exact integration by sympy is assumed. In C177_in_band delta is not given, as in C81_in_band.
* **C178** The bandwidth handed to eta2 is the half-gain bandwidth of the estimator. *Plan:* On the models of eta2 and of the signal transfer function (C18, C19) and the numerical transfer function of C159. With one input the signal transfer function is S/(S+eta2) for the squared gain S, and eta2 is S at the edge. Chains: each factor of the gain falls with the frequency. Leap-frog: the continuants of C81 on the imaginary axis are Chebyshev polynomials of the second kind; U_N(v)^2 sum a^m (m+1)^2 <= (N+1)^2 sum a^m U_m(v)^2 on [0,1] by Abel summation over the partial sums (closed form of the sum of squared sines), and the reverse strict inequality termwise beyond 1 (`Verif/Lemmas/BandEdge.lean`). **Status:** proved. Exact arithmetic. Resonances are excluded in C178_leap_frog (and zero frequency in C178_chain): numpy's pseudo-inverse reports no gain there, see C159_dc_false. The edge is shown not to be a resonance.
* **C179** The power spectral density adds up to the power of the sequence. *Plan:* Model welch with its default arguments (segments, removal of the mean, periodic window, one-sided density, average) and the rms values (Model/Welch.lean). Specification: the windowed power of the segments (Spec/Welch.lean). Parseval's identity from the orthogonality of the powers of a primitive root, folding of the symmetric spectrum by a bijection (Lemmas/Welch.lean). Counterexamples: the alternating sequence of every even length, and three bins. **Status:** partial. Proved for the spectrum. False for the rms values: the width of a bin is taken as the sampling frequency over the number of bins of the one-sided spectrum, which nearly doubles the power, and signal_rms has a factor of the window that noise_rms and snr do not have. One-dimensional sequences that are not empty; scipy's welch and blackman in exact arithmetic, as documented.
* **C18** Comparator offsets given to a multi-level control are honoured. *Plan:* False (super().__init__ overwrites offsets). Negation; partial for zero offsets. **Status:** partial. False: the base class constructor overwrites the offsets. Only the length check holds.
* **C180** A pure tone has infinite signal-to-noise ratio and the right power. *Plan:* Models of C179 and C45. The tone and the window are sums of powers of a root of unity, whose sums over a period vanish (Lemmas/Tone.lean); this gives every bin of every segment, whatever its phase. The peak and the sums over the mask and over the rest follow from the five coefficients of the window. **Status:** partial. Proved for masks of width 6 and more and tones at least three bins from either end. False for width 5 (`C180_width_false`): the mask leaves out the last of the five bins. One-dimensional sequences; scipy's welch in exact arithmetic.
* **C181** The distortion figures of a mixture of tones are ratios of amplitudes. *Plan:* Models of C77 and C179. The transform is linear, and at every bin at most one tone contributes, so that the squared magnitudes add up; the sums over the masks follow from the five coefficients of the window (C180). That the search finds all tones is an induction over its rounds: the tones found so far are distinct, an unfound one is left untouched, and the peak of what is left is the centre of a tone (Lemmas/Peaks.lean). **Status:** proved. One-dimensional sequences; scipy's welch in exact arithmetic. The SNR itself is a division by zero here (numpy: inf) and not spoken about.
* **C182** Gain, offset, sampling frequency and trailing samples do not change the evaluation of a spectrum. *Plan:* Models of C45, C77 and C179. Gain, offset and sampling frequency scale the whole spectrum by one positive factor (C179_affine); every round of the peak search takes the same course on a scaled spectrum (induction over the rounds), sums over masks are scaled (induction over the mask), and ratios are not. The trailing samples: the index of the last sample of the last segment. **Status:** proved. One-dimensional sequences that are not empty; scipy's welch in exact arithmetic. Divisions by zero (numpy: inf or nan) give 0 on both sides.
* **C183** A disturbed tone is still found, and its signal-to-noise ratio is as large as the disturbance is small. *Plan:* Models of C45, C77 and C179. In every segment the transform is that of the tone (C180) plus that of the disturbance, which is at most the sum of the window times twice the bound (the mean is removed); so bin m stays the largest. Away from the tone its transform vanishes. The noise is bounded by the total power of the disturbance (C179), the signal by bin m alone (Lemmas/Disturbed.lean). **Status:** proved. One-dimensional sequences; scipy's welch in exact arithmetic. The bounds are safe ones, not the best ones: a disturbance may be anything, also correlated with the tone.
* **C184** The rms values of a spectrum obey the triangle inequality. *Plan:* Models of C77 and C179. The power over a set of bins is a sum of squares over bins and segments with weights that do not depend on the sequence, of magnitudes of a transform that is linear in it; Minkowski's inequality. For the tone: both triangle inequalities, its own power (C181) and the total power of the disturbance (C179). For the ratio: bins clear of the tone see the disturbance only (C183), whose total power bounds the noise. **Status:** proved. One-dimensional sequences, masks without repetitions and within the spectrum; scipy's welch in exact arithmetic.
* **C185** The word length of the filter coefficients changes every part of the spectrum by at most two steps per tap. *Plan:* C121 bounds the difference of every pair of estimates, C184_close what a bounded difference does to the power in any bins. **Status:** proved. Without an offset (C121_offset_false) and for bits 0 and 1 as control signal, as in C121; scipy's welch in exact arithmetic. The floating-point filter itself is exact here.
* **C186** The spectrum of the estimates depends neither on the estimator nor, up to a geometrically small amount, on the length of its filters. *Plan:* C145 bounds the difference of every estimate from the ideal one, uniformly in time; C184_close carries a uniform bound over to the power in any bins. **Status:** proved. Exact arithmetic; the filter matrices are assumed to have vanishing powers, which C144 proves for chains and leap-frogs. Without downsampling, offset and limit for the FIR and IIR filters.
* **C19** Dithered control emits dither first and real decisions after. *Plan:* State machine with index per dither; induction over updates. **Status:** proved. The random table is a parameter; random_sequence_length >= 1.
* **C20** Control-bounded converters stay bounded for all time. *Plan:* Switched integrator chain over the reals: trajectories as differentiable functions satisfying the ODE on each period; induction over periods and over the chain; mean value inequality. **Status:** proved. All runs of the full simulator with an exact solver, all times. Stated for |beta_n| <= |kappa_n| and leak rho_n <= 0, which includes kappa = beta without local feedback.
* **C21** An analog system that is accepted is dimensionally consistent. *Plan:* Shapes as pairs of naturals; decision procedure transcribed; iff with a consistency predicate. **Status:** partial. Acceptance iff consistency is proved. False for the derivative of a system without Gamma, which raises.
* **C22** Chaining analog systems multiplies their transfer functions. *Plan:* Two-system block construction and induction over the list; resolvent of a block-triangular matrix. **Status:** partial. False when the first system has a different number of outputs and inputs (chain raises). For every accepted list the product law is proved.
* **C23** Stacking analog systems makes them act independently. *Plan:* Block diagonal matrices, induction over the list. **Status:** partial. Transfer function and trajectories are proved. False for the control observation of parts with B_tilde, which the stack drops.
* **C24** Transfer-function realisation is exact. *Plan:* Companion-form realisation; explicit vector solving (sI-A)x=B and uniqueness. **Status:** proved. Exact arithmetic over any field.
* **C25** Second-order-section realisation is exact. *Plan:* Cascade of biquads through the chain construction. **Status:** proved. Exact arithmetic over any field; a_0 = 0 is excluded (numpy yields infinities).
* **C26** Zero-pole-gain realisation is exact. *Plan:* Pole/zero pairing of zpk2abcd; negative gains are lost (negation), partial for positive gains and real/complex pairs; conjugate patterns are always accepted and realised exactly. **Status:** partial. False for negative gains (sign lost) and repeated real poles (division by zero). Proved with |k| for every accepted input on which the tolerances are harmless. Conjugate patterns without ties and with at most one real pole and zero are accepted.
* **C27** The control observation is defined however its arguments are supplied. *Plan:* False for (u given, s missing): returns None. Negation and partial. **Status:** partial. False when only one of u and s is given. Proved when both or neither are.
* **C28** Simulated time advances by exactly one period per control vector. *Plan:* Period map; ODE solver abstract with the defining property. The no-input branch uses a frozen state (negation); partial for systems with inputs. **Status:** partial. False without input signals (the right-hand side uses the state at the start of the period). Proved with input signals, for an exact solver and without thermal noise.
* **C29** The pre-computed simulator equals the exact solution. *Plan:* Variation of constants with the exact solution as specification; induction over the segments of a period. **Status:** partial. False for signals that change at the end of a period, for sinusoids into systems whose outputs are not their states, and at resonances; C29_refused tells which calls raise. Proved otherwise, for exact solvers.
* **C30** extended_simulation_result pairs each control vector with the state after it and never changes it afterwards. *Plan:* Heap model with copies; stability under later steps, induction over the number of calls. **Status:** proved. Array objects modelled by identity.
* **C31** The FIR estimator computes the reference estimate. *Plan:* Rolling buffer invariant; sums over taps; refinement to spec. **Status:** proved. Exact arithmetic; floating-point branch of the filter; coefficient solver is a parameter.
* **C32** The batch estimator computes the reference estimate. *Plan:* Batch state machine invariant over buffer, pointer and forward mean; refinement to spec. **Status:** proved. Exact arithmetic; coefficient solver is a parameter.
* **C33** The IIR estimator computes the reference estimate. *Plan:* Rolling buffer + forward mean invariant. **Status:** proved. Exact arithmetic. K2 = 0 is accepted by the constructor but every call then fails.
* **C34** The parallel estimator equals the batch estimator. *Plan:* Simulation relation between complex diagonal state and batch state. **Status:** proved. Eigen-decompositions are parameters assumed correct.
* **C35** The estimators agree with each other. *Plan:* Corollaries of C31-C33 against the common spec. **Status:** proved.
* **C36** stop_after_number_of_iterations bounds the number of estimates exactly. *Plan:* Exact count theorems; false for the batch estimator (double counting): negation + exact formula. **Status:** partial. False as stated (batch start counts as an iteration, 0 means no limit, downsampling divides the count); the exact counts are proved.
* **C37** Downsampling an FIR estimator equals decimating its output. *Plan:* Simulation argument on buffers. **Status:** proved.
* **C38** A finished stream yields no invented estimates. *Plan:* FIR/IIR: proved. Batch: false (zero vector, i.e. -1, is fed after the end); negation + partial. **Status:** partial. False for the batch estimator, which fabricates zero samples (its exact behaviour at the end of the stream is proved for a source that keeps raising RuntimeError until the batch is full; for a generator, which raises it only once, see `C165_batch_generator`); proved for FIR and IIR.
* **C39** FIR estimates depend only on the last K1+K2 control vectors and are affine in them. *Plan:* Buffer window argument. **Status:** proved.
* **C40** Convolving an FIR estimator with a filter is cascading. *Plan:* Convolution with 'same' window; odd lengths raise (negation), even lengths characterised. **Status:** partial. False as stated (odd tap counts raise, taps outside the window are cut); the exact cut is proved.
* **C41** Signal and noise transfer function are consistent and bounded. *Plan:* Inner-product inequalities over the complex numbers. **Status:** proved. pinv is assumed to return a Moore-Penrose inverse.
* **C42** RLS training solves the regularised weighted least squares problem. *Plan:* Sherman-Morrison; induction over steps. **Status:** partial. Proved for one reference and a window length different from the number of channels (see C44). False for several references: rls raises.
* **C43** The LMS gradient is the gradient of the loss. *Plan:* Quadratic expansion of the loss. **Status:** partial. Proved for one reference, real and complex data. False for several references: gradient raises, or offsets are mixed up when the batch has as many samples as references.
* **C44** Batching a signal for FIR processing produces the sliding windows. *Plan:* Window indices; transposition case M = K false: negation + partial for M != K. **Status:** partial. False when the number of channels equals the window length (transposed windows), and the last window is missing. Proved otherwise.
* **C45** Peak search returns in-range, strictly increasing indices containing the global peak. *Plan:* Masking loop over the spectrum with an invariant over the peaks found so far.  The quantifier of the property names the argument ranges (mask width at least 1, nonnegative distance) under which the peaks are described; range and order are proved for all arguments. **Status:** proved. Minimum distance and mask width nonnegative (mask width at least 1) where peaks are described; range and order for all arguments. An empty spectrum raises ValueError.
* **C46** Figures of merit convert losslessly. *Plan:* Real logarithms and powers. **Status:** proved. Exact real arithmetic.
* **C47** Figures of merit respond to power, resolution and bandwidth in the right direction. *Plan:* Real monotonicity. **Status:** proved. Exact real arithmetic.
* **C48** Synthesis from OSR honours the specification. *Plan:* Branches of the synthesis function; field arithmetic. **Status:** proved. A clock period below the 2e-14 s that the clock accepts raises. Exact arithmetic.
* **C49** Requested excess loop delay is part of the synthesised frontend. *Plan:* False (overwritten). Negation. **Status:** partial. False: the delay is validated and then ignored unless the switched-capacitor control is requested. Proved for the latter.
* **C50** Sigma-delta import preserves the loop filter. *Plan:* Dictionary of named coefficients, names as digit strings; the list of assignments determines every lookup as long as names are unambiguous (orders up to ten, exhaustive check of the finitely many index pairs).  False on the diagonal, for tiny values, without a last coefficient and from order eleven on (names coincide). **Status:** partial. Exact condition for a faithful import of orders 1 to 10; false on the diagonal, for tiny coefficients, an unobserved last state, and for every order from 11 on.
* **C51** Circuit connections form nets. *Plan:* Model of the port dictionary of a sub-circuit. False when a connection joins two nets that both exist already (negation with witness); proved for all sequences without such a connection, by an invariant over the connections. **Status:** partial. False when a connection joins two existing nets: only one terminal moves. Proved for all sequences that never do that.
* **C52** The op-amp integrator netlist realises the state-space model. *Plan:* The statements of the constructor are modelled as a list of operations; the netlist they print is computed for all sizes and matrices; Kirchhoff's current law at the virtual grounds with ideal op-amps then gives the state equation, and conversely every solution of the state equation is a behaviour of the circuit. **Status:** proved. Ideal op-amps; nonzero integration capacitance. The values are real numbers; the text of the netlist is modelled as instance name, device value and node names.
* **C53** The Gm-C netlist realises the state-space model. *Plan:* The netlists of the multi-input transconductors and of the frontend are computed for all sizes and matrices; Kirchhoff's current law at the state nodes gives the state equation; conversely every solution of the state equation is a behaviour of the circuit. **Status:** proved. Ideal transconductors (DC_gain=np.inf), nonzero capacitance, a digital control that senses the states without drawing current.
* **C54** Terminal lookup returns the terminal that was added. *Plan:* Invariant over all histories of additions, at the end and at positions. False for insertions at a position under a name in use (witness). **Status:** partial. False for insertions at a position, which accept duplicate names. Proved for histories of fresh names at valid positions; rejection of duplicates proved for additions at the end.
* **C55** Clock signals are periodic and next_tick is the next edge. *Plan:* Periodicity via `Int.fract`/`toIcoMod`; next_tick false for small T because of absolute tolerance: negation + partial. **Status:** partial. Waveform proved for the default swing and periodicity for all clocks. False: swings below 2 are exceeded, the documented duty cycle 1 is rejected, next_tick uses an absolute tolerance of 1e-8 s and returns non-edges for fast clocks.
* **C56** Reference signals only take values of their alphabet and are held for a period. *Plan:* State machine over evaluation times; oracle draws. **Status:** partial. Proved for binary, ternary and Gaussian signals. For uniform signals the holding time holds only if evaluations are at most one period apart.
* **C57** Quadrature pairs preserve energy. *Plan:* Rotation matrices. **Status:** partial. Proved for baseband signals that are functions of time. False for random baseband signals, which are drawn again for the second member of the pair.
* **C58** Signals combine pointwise. *Plan:* Expression trees; false for classes overriding __call__: negation + partial. **Status:** partial. False for ZeroOrderHold, whose call operator replaces its data. Proved for all other combinations of any depth.
* **C59** A dithered control contributes its decisions at every time of the period. *Plan:* State machine of the dithered control; the contribution is a case distinction on the delay.  False before the delay (missing attribute). **Status:** partial. False before the excess delay (missing attribute); proved from the delay on.
* **C60** ChainOfIntegrators is the documented network. *Plan:* Matrices of the constructor entry by entry; the specification `IsNetwork` states the differential equations of the documented network.  numpy broadcasts mismatching vectors silently where it can: witnessed in the non-detection part. **Status:** partial. Network equations proved for matching sizes. Size mismatches are not detected.
* **C61** LeapFrog is the documented network. *Plan:* As C60 with the local feedback couplings. **Status:** proved. For vectors of matching sizes and kappa given as a column.
* **C62** Leap-frog converters stay bounded for all time. *Plan:* As C20: invariant box over periods, mean value inequality, for the leap-frog system. **Status:** proved. As C20, for leap-frog structures whose controls dominate both couplings.
* **C63** The ADC survey draws the right contours and selects the right entries. *Plan:* Contours are level sets (algebra over the reals); the selection is a filter over an arbitrary list of rows. **Status:** proved. Exact real arithmetic; the survey data base is an arbitrary list of rows.
* **C64** LMS training sees every sample exactly once per epoch. *Plan:* Epoch loop over an arbitrary permutation; permutation lists and induction over batches.  The missing last window is witnessed by a signal of one window. **Status:** partial. Proved for window lengths different from the number of channels and for the windows actually produced. False for the last window: a signal of one window trains nothing, and no batching of its windows gives that result. Permutations are arbitrary; the inputs that are rejected are covered.
* **C65** Least squares training reaches the smallest possible loss. *Plan:* Normal equations for an arbitrary exact least-squares solver; expansion of the loss.  For complex data the reversed conjugation is witnessed. **Status:** partial. Proved for real data with an exact solver. False for complex data.
* **C66** Training methods can be combined. *Plan:* Shapes of the filter array after each training method; decision logic, induction over the list of trainings. **Status:** partial. False after lstsq. Proved for any lms and rls training.
* **C67** The recursive filter obeys its difference equation. *Plan:* Recursion over time against the difference equation as specification. **Status:** partial. Proved for one reference. False for several references: predict raises.
* **C68** A delayed clock is the same clock, later. *Plan:* Case distinction on the phase of the clock; `Int.floor` shift invariance. **Status:** partial. False for duty cycles other than 1/2. Proved for 1/2.
* **C69** Signals stay within their amplitude around their offset. *Plan:* Real trigonometric bounds; the ramp is refuted by a witness. **Status:** partial. Sinusoids and sinc pulses proved. Ramps: false unless the period is one second, since the slope, not the swing, is the amplitude.
* **C70** Held samples are held for one period each and repeat periodically. *Plan:* Index arithmetic of the held sample with floor and remainder; periodicity by integer shifts. **Status:** partial. Proved for times from zero on. False for negative times.
* **C71** Signals declared piecewise constant are. *Plan:* Structural induction over expression trees: flag implies constancy between the announced edges. **Status:** partial. False for RC responses (flagged but decaying) and Gaussian signals (no flag, cannot be combined). Proved for all other expressions without state.
* **C72** The numerical, multi-precision and symbolic forms of a signal agree. *Plan:* Three evaluators on the same expression tree; structural induction; exceptions witnessed. **Status:** partial. False for sinc pulses, pulses that end, and before the start of delayed responses. Proved otherwise. Clock.symbolic is not modelled.
* **C73** Reference signals are functions of time. *Plan:* Random draws are arbitrary functions of the draw number; memo state machine. **Status:** partial. Proved for immediate repetition of binary, ternary and Gaussian signals. False with other evaluations in between, and for uniform signals.
* **C74** Phase and offset of a quadrature pair are honoured. *Plan:* Evaluation of the pair; refuted by a witness, proved for the defaults. **Status:** partial. False: phase and offset are ignored. Proved for zero phase and offset.
* **C75** Control-signal transfer function includes the output matrix. *Plan:* Matrix identities over the complex numbers; pinv is a Moore-Penrose parameter. **Status:** partial. False: the output matrix is not applied and N != N_tilde raises; proved for C = I.
* **C76** General transfer function is the transfer function from each state to each estimate. *Plan:* As C75; the magnitude sum is refuted by a witness. **Status:** partial. False: magnitudes are summed without phase; proved for one output.
* **C77** SNR, SINAD and distortion figures of a spectrum are consistent. *Plan:* Sums over bins of an arbitrary nonnegative spectrum; logarithms monotone. **Status:** partial. The last clause is false: with no harmonics given the default mask counts the DC bin as a harmonic. The other clauses are proved.
* **C78** CSV reader delivers the lines in order and stops at the first malformed one. *Plan:* List recursion over lines; parsing of one line is a parameter. **Status:** proved. np.fromstring on one line is a parameter.
* **C79** Each part of a chain moves as it would alone, driven by the part before it. *Plan:* Block structure of `chain`; projection of a trajectory of the chain to its parts; induction over the list. **Status:** partial. The control observation part is false for parts with a B_tilde (chain drops it); proved for parts without.
* **C80** Synthesis from ENOB meets the in-band noise budget. *Plan:* Closed form of the chain transfer function over the complex numbers, integral of the in-band noise, real powers. **Status:** proved. Continuous default control. Exact real arithmetic.
* **C81** Leap-frog synthesis puts its resonances into the band and meets the noise budget. *Plan:* Continuant polynomial of the tridiagonal system; its roots by Chebyshev-like recurrences; `g_i` (a sympy integral) is a parameter with its defining equation. **Status:** proved. g_i (a sympy integral) is a parameter, given its defining equation where it matters; C177 evaluates it.
* **C82** Synthesised leap-frog converters are never overloaded. *Plan:* Refuted by a two-integrator state that leaves every box; for one integrator by C62's invariant. **Status:** partial. False for two or more integrators (witnessed for every second-order OSR design); proved for one integrator.
* **C83** Sigma-delta file import builds the described modulator. *Plan:* Lookup semantics of the reader against the sum of the active coefficients.  False for inactive coefficients. **Status:** partial. False for inactive coefficients. Proved for files whose coefficients are all active and connect each pair of states at most once.
* **C84** A bandpass frontend is the baseband frontend moved to the carrier. *Plan:* Demodulate the pair of state halves with exp(-i w t) and show the complex envelope obeys the baseband differential equation (product rule on the rotating frame); transfer functions through the Transfers relation. False for D, B_tilde and the delay of the original control, which are dropped. **Status:** partial. False when the baseband system has a feed-through D, and a delayed control loses its delay. Proved for the rest.
* **C85** The default bandpass control compensates one period at the carrier. *Plan:* Integrate the control contribution in the rotating frame over one period, compare with the baseband contribution. Error branch: widths that differ raise. The requested delay is compared with the delay of the control that is built (false). **Status:** partial. False: the control is built without the delay delta_DC that the control observation compensates for. The period identity and the rejection are proved.
* **C86** First-order bandpass converters are control-bounded. *Plan:* Invariant over the runs of the simulator: the period identity of C85 plus a norm bound of the rotated input contribution. **Status:** proved. Default control (no modulate), any phase, no requested delay. Exact arithmetic; the ODE solver is taken to be exact.
* **C87** Chain-of-oscillators synthesis gives coupled resonators at the requested frequency. *Plan:* Pair the states into complex numbers and evaluate the rows of the block matrix. False for simulation (the control has N instead of 2N controls) and for ENOB and SNR (always raise). **Status:** partial. The analog system for OSR specifications is proved; the frontend can never be simulated because it has half the controls, and ENOB and SNR specifications always raise.
* **C88** Parallel leap-frog synthesis couples copies of the leap-frog structure without loss. *Plan:* Row formula of stacked systems plus a last-assignment lemma for the fold of block assignments. False for widths other than 3 and 4 with default resonances; for longer lists the couplings that are read are determined for every width, with a witness that they change the energy. **Status:** partial. Proved for widths 3 and 4. Every other width raises with the default resonances and with one resonance for every pair of parts; with a longer list it is accepted, lossless if all resonances are equal, and not lossless in general.
* **C89** The netlist has one node per net. *Plan:* Node names as printed. False because nets are named after terminals and terminals of different elements have equal names (witness); proved for the pattern used by the frontends, fresh terminals attached to hubs with different names. **Status:** partial. False: nets are named after a terminal, and equal names of terminals of different elements short their nets. Proved when every connection attaches a fresh terminal to a hub and hubs have different names.
* **C90** A finite DC gain of the Gm-C frontend is the gain the user asked for. *Plan:* The damping that the resistors add to the state equation is computed for all systems; a counterexample for the documented gain. **Status:** partial. False: the gain is four times the requested one (the resistors are twice as large and each sees half the current). The exact damped state equation is proved for all systems, and the division by zero for a zero input matrix.
* **C91** In the dither control circuit every random control is driven by its own reference sequence. *Plan:* Model: `ditherControlOps` lists the statements of the constructor; running them gives the netlist `dcNet` (`di_netlist`, by the star lemma: every connection attaches a fresh terminal to a hub). `C91_path` proves the signal path for every R. Isolation holds for one random control (`C91_isolated_partial`) and fails for any two: the net takes its name from the terminal `F_OUT_P`, which all flip-flops have (`C91_isolated_false`). **Status:** partial. The signal path holds for all R. The outputs of all flip-flops are on the same node F_OUT_P (and F_OUT_N) as soon as there are two random controls, so all random controls are shorted together (C91_isolated_false); with one random control the nodes are isolated (C91_isolated_partial). The inside of the digital control sub-circuit Xdc is not part of this netlist.
* **C92** The generated op-amp model has the DC gain and the gain-bandwidth product it was given. *Plan:* Model: `opampMacro` executes the constructor of `OpAmp`, and the netlist is read with the physical laws of resistors, capacitors and controlled sources. `C92_one_pole` shows, in both directions, that the sub-circuit behaves exactly as the one-pole system `OnePole`, and covers the ZeroDivisionError. `C92_static` and `C92_sinusoid` compute the gains of that system. The differential-to-differential gain is twice the requested one: `C92_differential_gain_false`. **Status:** partial. Each single output has the requested gain and the unity-gain frequency GBWP. Between the two outputs the gain is 2*DC_gain, because both outputs carry the full signal (C92_differential_gain_false); a user who reads DC_gain as differential-to-differential gain gets twice that. The equivalence needs DC_gain not 0.
* **C93** The op-amp frontend built from generated op-amps follows the state equation up to an error that vanishes with the gain and the bandwidth. *Plan:* Combine the netlist of the frontend (C52) with the one-pole characterisation of the macro (C92): Kirchhoff's law at the virtual grounds gives the exact differential equation with the virtual-ground error, and the one-pole law bounds that error. `C93_realisable` is the converse: any functions that satisfy the exact equations are a solution of the generated circuit, so the hypotheses are met. **Status:** proved. Kirchhoff's law is only needed at the virtual grounds; the outputs are driven by controlled sources. An example instantiates the converse for one integrator.
* **C94** The digital control circuit compares what control_observation returns. *Plan:* Model: `comparatorOps`, `digitalOps` list the statements of the two constructors, `digitalControl` adds the exceptions; the xspice summer is a device with the law out = sum of gain times differential input plus offset. The netlists follow from the star lemma. `C94_shape` characterises success, `C94_observation` compares every solution with `controlObservation` (the model of the python method), `C94_drivers` excludes other drivers, and `C94_realisable` shows that any terminal potentials belong to a solution. **Status:** proved. The clocked comparator inside is a black box with an arbitrary law; its analog-to-digital bridges and flip-flop are not modelled. The multi-phase variant, which only delays the clock of each comparator, is not covered.
* **C95** The estimate is the least-squares input, and the filters realise the reported transfer functions. *Plan:* Model: `Numerical` (Riccati solutions, matrix exponentials, solutions of initial value problems and the normal equations of lstsq as relations) and the batch and IIR estimators of the earlier model. Specification: `IsLeastSquares` over trajectories given period by period. Proof: completion of squares (Riccati equations give a costate; a Pythagoras identity per period; telescoping over the periods), superposition and uniqueness of linear differential equations for the sampled filters. `C95_transfer`: the Riccati identities in the frequency domain. **Status:** partial. Exact arithmetic, numpy backend (C96 relates the others), no excess delay and waveforms that start at the updates (false otherwise, C96_delay_false). For an analog system with direct feedthrough D the filters ignore D, so they do not realise the reported transfer functions (C95_feedthrough_false). Positive definite covariances are assumed here and proved in C98.
* **C96** The filter coefficients carry the filters exactly from one update to the next, with every backend. *Plan:* Model: `Numerical`, `MpSolver`, `SymSolver` with the three waveform classes `Dac` and their `evaluate`, `_mpmath` and `symbolic` forms. Specification: `SamplesForward`, `SamplesBackward`. Proof: variation of constants by uniqueness, superposition over the controls, time reversal; counterexamples with one integrator and explicit solutions. **Status:** partial. numpy: exact for all waveforms, but excess delay (t_delay > 0) is ignored (C96_delay_false). mpmath, the default: exact if and only if the waveform starts at the update and lasts until the next one (C96_mpmath with C96_mpmath_waveforms); delayed steps are treated as if they started at the update (C96_mpmath_false). sympy: the forward filter is exact for all delayed waveforms that do not end before the next update (C96_sympy_forward with C96_sympy_waveforms); the backward filter does not reverse time, so it is exact for constant waveforms only (C96_sympy_backward_partial, C96_sympy_false).
* **C97** mid_point=True changes only how the filter coefficients are computed. *Plan:* Model: `MidPoint`, `NumericalMid`, `Computed`. Forward: two half periods are joined (`Flow.glue`, `Flow.shift`). Backward: counterexample with one integrator. **Status:** partial. The forward coefficients are exact. The backward coefficients use expm(tempAb Ts/2) where expm(-tempAb Ts/2) is needed and are wrong even for one integrator (C97_backward_false). The default backend ignores the option (C97_backends_false), the sympy backend raises NotImplementedError.
* **C98** care returns the stabilising solution and the filters are stable. *Plan:* Model: `hamiltonian`, `EigBasis` (a sorted basis of eigenvectors), `EigCare` (quotient of blocks, real part, symmetrised). Specification: `IsStabilising`, `Hurwitz`, `Observable` (Hautus test). Proof: the characteristic polynomial is even, no eigenvalue is imaginary, so the first half of a sorted basis is stable; Sylvester equations make the quotient symmetric and Hermitian, hence real; definiteness from decay of exponentials and an invariant kernel. Finding: two integrators in a chain with eta2 = 1/4 have a defective Hamiltonian matrix although a stabilising solution exists (`C98_defective_false`), so that the filter cannot be computed. **Status:** partial. Assumes that the Hamiltonian matrix has a basis of eigenvectors (diagonalize raises otherwise, and the exception MatrixError is not caught by care; `C98_defective_false` shows a pair of integrators for which a stabilising solution exists but no such basis) and that the eigenvalues are sorted by real part; the latter holds for _numpy_care, while sympy sorts complex eigenvalues by its own key. Exact arithmetic.
* **C99** The NUV estimator reads each batch and its look-ahead and nothing more, and ends as its stream ends. *Plan:* Iterator model with explicit exceptions (`Verif/Model/Nuv.lean`); an invariant over batches gives the state before each batch as a function of the stream (`Lemmas/NuvBatch.lean`), from which all clauses follow. **Status:** proved. All clauses, for every parameter and stream; the control iterator is a function from call index to decision or exception.
