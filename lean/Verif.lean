import Verif.Model.AgcChain
import Verif.Model.AudioStream
import Verif.Model.Biquad
import Verif.Model.Bitset
import Verif.Model.CompChain
import Verif.Model.Conditioner
import Verif.Model.DbTable
import Verif.Model.Decibel
import Verif.Model.Delay
import Verif.Model.Device
import Verif.Model.DrWav
import Verif.Model.DrWavAdpcm
import Verif.Model.DrWavW64
import Verif.Model.Dynamics
import Verif.Model.Echo
import Verif.Model.Envelope
import Verif.Model.FFT
import Verif.Model.FastHyper
import Verif.Model.FastMath
import Verif.Model.Float
import Verif.Model.Float32
import Verif.Model.Follower
import Verif.Model.Fx
import Verif.Model.Logic
import Verif.Model.Midi
import Verif.Model.Monitor
import Verif.Model.Moving
import Verif.Model.Osc
import Verif.Model.PeriodDetector
import Verif.Model.Phase
import Verif.Model.PitchDetector
import Verif.Model.Rand
import Verif.Model.Ring
import Verif.Model.RoundFilter
import Verif.Model.RoundGate
import Verif.Model.Rounding
import Verif.Model.Signal
import Verif.Model.Sin
import Verif.Model.SinSynth
import Verif.Model.SinTable
import Verif.Model.Stream
import Verif.Model.Synth
import Verif.Model.UB
import Verif.Model.Units
import Verif.Model.Wav
import Verif.Model.WavConvert
import Verif.Model.ZeroCrossing
import Verif.Proof.Bibo
import Verif.Proof.Bitset
import Verif.Proof.DbTable
import Verif.Proof.Decibel
import Verif.Proof.DecibelReal
import Verif.Proof.DrWav
import Verif.Proof.DrWavAdpcm
import Verif.Proof.DrWavAdpcm2
import Verif.Proof.DrWavOpen
import Verif.Proof.DrWavRead
import Verif.Proof.DrWavW64
import Verif.Proof.DrWavWrite
import Verif.Proof.FFT
import Verif.Proof.FFTRound
import Verif.Proof.FFTSin
import Verif.Proof.FastExp
import Verif.Proof.FloatErr
import Verif.Proof.Interp
import Verif.Proof.Osc
import Verif.Proof.PeriodDetector
import Verif.Proof.PeriodSearch
import Verif.Proof.Pulses
import Verif.Proof.Ring
import Verif.Proof.RingHist
import Verif.Proof.RoundCompute
import Verif.Proof.RoundEval
import Verif.Proof.RoundFilter
import Verif.Proof.RoundMore
import Verif.Proof.RoundScale
import Verif.Proof.Rounding
import Verif.Proof.SinTable
import Verif.Proof.Tone
import Verif.Proof.ToneAnalysis
import Verif.Proof.ToneLock
import Verif.Proof.ToneStep
import Verif.Proof.ZeroCrossing
import Verif.Props.AgcChain
import Verif.Props.Allpass
import Verif.Props.AudioStream
import Verif.Props.BaseFn
import Verif.Props.Biquad
import Verif.Props.Bitset
import Verif.Props.CompChain
import Verif.Props.Conditioner
import Verif.Props.ConditionerMore
import Verif.Props.Decibel
import Verif.Props.DecibelAccuracy
import Verif.Props.DecibelInverse
import Verif.Props.Delay
import Verif.Props.DetectorFloatEx
import Verif.Props.Device
import Verif.Props.DualPitch
import Verif.Props.DualPitchFloat
import Verif.Props.DualPrediction
import Verif.Props.Dynamics
import Verif.Props.DynamicsFloat
import Verif.Props.Echo
import Verif.Props.Envelope
import Verif.Props.EnvelopeCurve
import Verif.Props.ExpanderChain
import Verif.Props.FFT
import Verif.Props.FastEnv
import Verif.Props.FastExpAcc
import Verif.Props.FastHyper
import Verif.Props.FastMath
import Verif.Props.FastMathLog
import Verif.Props.FastMathPow
import Verif.Props.FastSin
import Verif.Props.FastTan
import Verif.Props.Follower
import Verif.Props.Fx
import Verif.Props.Logic
import Verif.Props.Midi
import Verif.Props.Monitor
import Verif.Props.Moving
import Verif.Props.MovingMax
import Verif.Props.NoteFrequency
import Verif.Props.Notes
import Verif.Props.Osc
import Verif.Props.PeriodDetector
import Verif.Props.PeriodSearch
import Verif.Props.PeriodSearchFloat
import Verif.Props.Phase
import Verif.Props.PitchDetector
import Verif.Props.PitchFloat
import Verif.Props.PitchLock
import Verif.Props.Pulses
import Verif.Props.PulsesFloat
import Verif.Props.Rand
import Verif.Props.Reso
import Verif.Props.Ring
import Verif.Props.RoundFilter
import Verif.Props.RoundGate
import Verif.Props.RoundHilbert
import Verif.Props.RoundReso
import Verif.Props.RoundSum
import Verif.Props.Sin
import Verif.Props.SinSynth
import Verif.Props.Smoother
import Verif.Props.SoftKneeFloat
import Verif.Props.Synth
import Verif.Props.SynthSoft
import Verif.Props.Tanh
import Verif.Props.Tone
import Verif.Props.ToneDual
import Verif.Props.ToneDualFloat
import Verif.Props.ToneDualLock
import Verif.Props.ToneDualStuck
import Verif.Props.ToneFloat
import Verif.Props.ToneLock
import Verif.Props.TonePitch
import Verif.Props.TonePitchFloat
import Verif.Props.TonePitchStuck
import Verif.Props.TonePredict
import Verif.Props.Triangle
import Verif.Props.Units
import Verif.Props.Wav
import Verif.Props.WavConvert
import Verif.Props.WavCutSeek
import Verif.Props.WavFile
import Verif.Props.WavIma
import Verif.Props.WavImaFile
import Verif.Props.WavMs
import Verif.Props.WavMsFile
import Verif.Props.WavOpen
import Verif.Props.WavPcm
import Verif.Props.WavW64
import Verif.Props.Waveshaper
import Verif.Props.ZeroCrossing
