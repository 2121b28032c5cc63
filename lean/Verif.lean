import Verif.Audit
import Verif.Lemmas.Adaptive
import Verif.Lemmas.BandEdge
import Verif.Lemmas.Bench
import Verif.Lemmas.Bounded
import Verif.Lemmas.Bytes
import Verif.Lemmas.Cards
import Verif.Lemmas.CareExists
import Verif.Lemmas.Chain
import Verif.Lemmas.ChebyshevII
import Verif.Lemmas.Circuit
import Verif.Lemmas.ClosedLoop
import Verif.Lemmas.Coordinates
import Verif.Lemmas.Decay
import Verif.Lemmas.Disturbed
import Verif.Lemmas.Drift
import Verif.Lemmas.EndToEnd
import Verif.Lemmas.Estimator
import Verif.Lemmas.EstimatorBatch
import Verif.Lemmas.EstimatorEnd
import Verif.Lemmas.EstimatorIIR
import Verif.Lemmas.Existence
import Verif.Lemmas.FIRExport
import Verif.Lemmas.FIRExportFiles
import Verif.Lemmas.FIRExportRead
import Verif.Lemmas.FIRExportSci
import Verif.Lemmas.FIRFixed
import Verif.Lemmas.FilterCoefficients
import Verif.Lemmas.FilterDesign
import Verif.Lemmas.FilterExample
import Verif.Lemmas.FilterSampling
import Verif.Lemmas.FilterTransfer
import Verif.Lemmas.Filters
import Verif.Lemmas.Flow
import Verif.Lemmas.FlowJoin
import Verif.Lemmas.Frontend
import Verif.Lemmas.FrontendText
import Verif.Lemmas.FrontendTextGm
import Verif.Lemmas.FrontendTextOp
import Verif.Lemmas.GlobalControl
import Verif.Lemmas.GlobalControlExample
import Verif.Lemmas.GlobalControlMain
import Verif.Lemmas.GmC
import Verif.Lemmas.Hierarchy
import Verif.Lemmas.InputUnit
import Verif.Lemmas.LC
import Verif.Lemmas.LCGains
import Verif.Lemmas.LCModel
import Verif.Lemmas.LCNet
import Verif.Lemmas.LeapFactor
import Verif.Lemmas.LeapFrog
import Verif.Lemmas.LeastSquares
import Verif.Lemmas.Linear
import Verif.Lemmas.LoopControl
import Verif.Lemmas.LoopExample
import Verif.Lemmas.LoopShift
import Verif.Lemmas.Loose
import Verif.Lemmas.Mean
import Verif.Lemmas.Mirror
import Verif.Lemmas.Mismatch
import Verif.Lemmas.Modulator
import Verif.Lemmas.Noise
import Verif.Lemmas.Numbering
import Verif.Lemmas.NuvBatch
import Verif.Lemmas.NuvChain
import Verif.Lemmas.NuvDescent
import Verif.Lemmas.NuvEnds
import Verif.Lemmas.NuvExample
import Verif.Lemmas.NuvLeastSquares
import Verif.Lemmas.NuvMain
import Verif.Lemmas.NuvRate
import Verif.Lemmas.NuvRounds
import Verif.Lemmas.NuvSmoother
import Verif.Lemmas.NuvStream
import Verif.Lemmas.OpAmp
import Verif.Lemmas.Parallel
import Verif.Lemmas.Parts
import Verif.Lemmas.Peaks
import Verif.Lemmas.Pinv
import Verif.Lemmas.Principle
import Verif.Lemmas.Quadrature
import Verif.Lemmas.Reachable
import Verif.Lemmas.Replace
import Verif.Lemmas.Replay
import Verif.Lemmas.Resonance
import Verif.Lemmas.Reuse
import Verif.Lemmas.Riccati
import Verif.Lemmas.RunExists
import Verif.Lemmas.SigmaDelta
import Verif.Lemmas.SignalTree
import Verif.Lemmas.Signals
import Verif.Lemmas.Simulator
import Verif.Lemmas.Spectrum
import Verif.Lemmas.Stack
import Verif.Lemmas.Structures
import Verif.Lemmas.SymbolicEquations
import Verif.Lemmas.Synthesis
import Verif.Lemmas.TestBench
import Verif.Lemmas.Tone
import Verif.Lemmas.Topology
import Verif.Lemmas.TransferFunction
import Verif.Lemmas.Truncation
import Verif.Lemmas.UnitElements
import Verif.Lemmas.Units
import Verif.Lemmas.Waveforms
import Verif.Lemmas.Welch
import Verif.Lemmas.Zpk
import Verif.Model.Adaptive
import Verif.Model.AdaptiveIIR
import Verif.Model.AdaptiveResponse
import Verif.Model.AnalogSystem
import Verif.Model.Basic
import Verif.Model.Bench
import Verif.Model.Bytes
import Verif.Model.Cards
import Verif.Model.Care
import Verif.Model.Circuit
import Verif.Model.Connections
import Verif.Model.CsvText
import Verif.Model.Decimation
import Verif.Model.DigitalControl
import Verif.Model.Estimator
import Verif.Model.FIRExport
import Verif.Model.FIRFixed
import Verif.Model.FilterCoefficients
import Verif.Model.FilterDesign
import Verif.Model.Filters
import Verif.Model.FixedPoint
import Verif.Model.Fom
import Verif.Model.FrontendText
import Verif.Model.GlobalControl
import Verif.Model.Hierarchy
import Verif.Model.Interpolation
import Verif.Model.LC
import Verif.Model.LeapFactor
import Verif.Model.Modulator
import Verif.Model.NetlistText
import Verif.Model.NgSpice
import Verif.Model.Noise
import Verif.Model.NoiseBalance
import Verif.Model.Nuv
import Verif.Model.OvercompleteSet
import Verif.Model.Parallel
import Verif.Model.PreComputed
import Verif.Model.Quadrature
import Verif.Model.ReferenceSource
import Verif.Model.Replace
import Verif.Model.Replay
import Verif.Model.Resonance
import Verif.Model.Reuse
import Verif.Model.Sampled
import Verif.Model.SigmaDelta
import Verif.Model.SignalTree
import Verif.Model.Signals
import Verif.Model.Simulator
import Verif.Model.Spectrum
import Verif.Model.Streams
import Verif.Model.Structures
import Verif.Model.SymbolicEquations
import Verif.Model.Synthesis
import Verif.Model.TestBench
import Verif.Model.Topology
import Verif.Model.TransferFunction
import Verif.Model.UnitElements
import Verif.Model.VerilogAms
import Verif.Model.WarmUp
import Verif.Model.Waveforms
import Verif.Model.Welch
import Verif.Model.Zpk
import Verif.Props.Adaptive
import Verif.Props.AdaptiveIIR
import Verif.Props.AdaptiveLast
import Verif.Props.AdaptiveResponse
import Verif.Props.AnalogSystem
import Verif.Props.BandEdge
import Verif.Props.Bench
import Verif.Props.BenchEstimate
import Verif.Props.BenchGain
import Verif.Props.BenchLoop
import Verif.Props.Bounded
import Verif.Props.Bytes
import Verif.Props.Cards
import Verif.Props.Care
import Verif.Props.Causality
import Verif.Props.Chain
import Verif.Props.ChebyshevII
import Verif.Props.Circuit
import Verif.Props.ClosedLoop
import Verif.Props.Comparator
import Verif.Props.Connections
import Verif.Props.Coordinates
import Verif.Props.CsvText
import Verif.Props.Decimation
import Verif.Props.DigitalCircuit
import Verif.Props.DigitalControl
import Verif.Props.Disturbed
import Verif.Props.Dither
import Verif.Props.EndToEnd
import Verif.Props.EstimateRange
import Verif.Props.Estimator
import Verif.Props.EstimatorSpectrum
import Verif.Props.Existence
import Verif.Props.FIRExport
import Verif.Props.FIRFixed
import Verif.Props.FilterBackends
import Verif.Props.FilterCoefficients
import Verif.Props.FilterDesign
import Verif.Props.Filters
import Verif.Props.FixedPoint
import Verif.Props.Fom
import Verif.Props.FrontendText
import Verif.Props.FrontendTextGm
import Verif.Props.GlobalControl
import Verif.Props.GmC
import Verif.Props.Hierarchy
import Verif.Props.InputUnit
import Verif.Props.Interpolation
import Verif.Props.LC
import Verif.Props.LeapFactor
import Verif.Props.LeapFrog
import Verif.Props.Mean
import Verif.Props.MeanLeaky
import Verif.Props.Mirror
import Verif.Props.Mixture
import Verif.Props.Modulator
import Verif.Props.MultiLevelHistory
import Verif.Props.MultiPhase
import Verif.Props.NetlistText
import Verif.Props.NgSpice
import Verif.Props.Noise
import Verif.Props.NoiseBalance
import Verif.Props.Numbering
import Verif.Props.Nuv
import Verif.Props.OpAmp
import Verif.Props.OpAmpMacro
import Verif.Props.Oscillators
import Verif.Props.OvercompleteSet
import Verif.Props.Parts
import Verif.Props.PreComputed
import Verif.Props.Principle
import Verif.Props.PrintedLoop
import Verif.Props.PrintedLoopGm
import Verif.Props.Quadrature
import Verif.Props.QuadratureBound
import Verif.Props.ReferenceSource
import Verif.Props.Replace
import Verif.Props.Replay
import Verif.Props.Resonance
import Verif.Props.Reuse
import Verif.Props.Riccati
import Verif.Props.RunExists
import Verif.Props.Sampled
import Verif.Props.SigmaDelta
import Verif.Props.SignalTree
import Verif.Props.Signals
import Verif.Props.Simulator
import Verif.Props.SimulatorCases
import Verif.Props.Spectrum
import Verif.Props.SpectrumInvariance
import Verif.Props.SpectrumTriangle
import Verif.Props.Stabilising
import Verif.Props.Streams
import Verif.Props.Structures
import Verif.Props.SymbolicEquations
import Verif.Props.Synthesis
import Verif.Props.Terminals
import Verif.Props.TestBench
import Verif.Props.TestBenchTiming
import Verif.Props.Tolerance
import Verif.Props.Tone
import Verif.Props.Topology
import Verif.Props.TransferFunction
import Verif.Props.Truncation
import Verif.Props.UnitElements
import Verif.Props.Units
import Verif.Props.UnitsSynthesis
import Verif.Props.VerilogAms
import Verif.Props.WarmUp
import Verif.Props.Waveforms
import Verif.Props.Welch
import Verif.Props.WordLength
import Verif.Props.Zpk
import Verif.Props.ZpkConjugate
import Verif.Spec.Adaptive
import Verif.Spec.AnalogSystem
import Verif.Spec.Bytes
import Verif.Spec.Cards
import Verif.Spec.Circuit
import Verif.Spec.ClosedLoop
import Verif.Spec.Comparator
import Verif.Spec.Connections
import Verif.Spec.Coordinates
import Verif.Spec.CsvText
import Verif.Spec.Decimation
import Verif.Spec.DigitalControl
import Verif.Spec.Dither
import Verif.Spec.EndToEnd
import Verif.Spec.Estimator
import Verif.Spec.FIRExport
import Verif.Spec.FilterCoefficients
import Verif.Spec.FilterDesign
import Verif.Spec.Filters
import Verif.Spec.FrontendText
import Verif.Spec.GlobalControl
import Verif.Spec.Hierarchy
import Verif.Spec.InputUnit
import Verif.Spec.LC
import Verif.Spec.Mirror
import Verif.Spec.Mismatch
import Verif.Spec.Modulator
import Verif.Spec.NetlistText
import Verif.Spec.NgSpice
import Verif.Spec.Noise
import Verif.Spec.Numbering
import Verif.Spec.Nuv
import Verif.Spec.Parts
import Verif.Spec.Replay
import Verif.Spec.Resonance
import Verif.Spec.Reuse
import Verif.Spec.SigmaDelta
import Verif.Spec.SignalTree
import Verif.Spec.Signals
import Verif.Spec.Spectrum
import Verif.Spec.Structures
import Verif.Spec.SymbolicEquations
import Verif.Spec.Synthesis
import Verif.Spec.TestBench
import Verif.Spec.Topology
import Verif.Spec.TransferFunction
import Verif.Spec.UnitElements
import Verif.Spec.Units
import Verif.Spec.VerilogAms
import Verif.Spec.Waveform
import Verif.Spec.Waveforms
import Verif.Spec.Welch
