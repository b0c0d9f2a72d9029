import Verif.Model.UB
/-!
# Audio streams: `q_io/src/audio_stream.cpp`, `q_io/include/q_io/audio_stream.hpp`, `q/support/audio_stream.hpp`; opening and closing
# of MIDI input streams: `q_io/src/midi_stream.cpp`

PortAudio and PortMidi are an arbitrary host: what it answers is a parameter, and the calls made to it are recorded.
-/
namespace Verif
namespace AudioStream

/-- The fields of `PaDeviceInfo` the code reads (audio_stream.cpp 114, 125, 159). Doubles are modelled as rationals. -/
structure DevInfo where
  lowIn : Rat
  lowOut : Rat
  rate : Rat
  deriving DecidableEq

/-- `PaStreamParameters` as filled in at audio_stream.cpp 107-127 (sample format: always 32-bit float, non-interleaved). -/
structure Params where
  device : Nat
  channels : Int
  latency : Rat
  deriving DecidableEq

/-- The three callback functions (audio_stream.cpp 15-79). -/
inductive Callback where
  /-- `audio_stream_callback1`: input and output -/
  | both
  /-- `audio_stream_callback2`: input only -/
  | input
  /-- `audio_stream_callback3`: output only -/
  | output
  deriving DecidableEq

/-- What PortAudio is asked to open: the arguments of `Pa_OpenStream` (audio_stream.cpp 134-140) or `Pa_OpenDefaultStream`
(172-178). `frames` is an `unsigned long`. -/
inductive OpenCall where
  | device (inp out : Option Params) (rate : Int) (frames : Nat) (cb : Callback)
  | dflt (inp out : Int) (rate : Int) (frames : Nat) (cb : Callback)
  deriving DecidableEq

/-- The fields of `PaStreamInfo` the code reads (audio_stream.cpp 207-226). -/
structure StreamInfo where
  inLatency : Rat
  outLatency : Rat
  rate : Rat

/-- The calls the code makes to the host. -/
inductive HostCall where
  | openStream (c : OpenCall)
  | start (h : Nat)
  | stop (h : Nat)
  | getInfo (h : Nat)
  | getTime (h : Nat)
  | getLoad (h : Nat)
  | close (h : Nat)
  deriving DecidableEq

/-- PortAudio: the devices, the default input device (negative: there is none), and the answers to the calls. A stream handle
is a number; an error is its code. -/
structure Host where
  devices : List DevInfo
  defaultInput : Int
  openStream : OpenCall → Except Int Nat
  errorText : Int → String
  info : Nat → StreamInfo
  time : Nat → Rat
  load : Nat → Rat
  close : Nat → Int

/-- `Pa_GetDeviceInfo(id)->...`: the information on a device; `Pa_GetDeviceInfo` returns a null pointer for an id out of range. -/
def devInfo (H : Host) (id : Int) : C DevInfo :=
  if id < 0 then .error .nullDeref
  else match H.devices[id.toNat]? with
    | some d => .ok d
    | none => .error .nullDeref

/-- Conversion of a `std::size_t` to `int` (two's complement). -/
def toInt (n : Nat) : Int := if n % 4294967296 < 2147483648 then (n % 4294967296 : Nat) else (n % 4294967296 : Nat) - 4294967296

/-- Conversion of an `int` to `unsigned long` (64 bits). -/
def toULong (n : Int) : Nat := (n % 2 ^ 64).toNat

/-- Conversion of a (non-negative) `double` to `int`: undefined when out of range. Audio rates are non-negative. -/
def rateToInt (r : Rat) : C Int := if -1 < r ∧ r.floor < 2 ^ 31 then .ok (if r < 0 then 0 else r.floor) else .error .badFloatCast

/-- A `port_audio_stream` (q_io/audio_stream.hpp 52-55); `error = none` is the uninitialised pointer. -/
structure Stream where
  impl : Option Nat
  inputs : Nat
  outputs : Nat
  error : Option String
  deriving DecidableEq

/-- The choice of the callback (audio_stream.cpp 129-132, 167-170). -/
def chooseCallback (inputs outputs : Nat) : Callback :=
  if inputs ≠ 0 ∧ outputs ≠ 0 then .both else if inputs ≠ 0 then .input else .output

/-- audio_stream.cpp 99-100, 161-162: `frames == -1` is `paFramesPerBufferUnspecified`, which is 0. -/
def framesArg (frames : Int) : Nat := toULong (if frames = -1 then 0 else frames)

/-- audio_stream.cpp 141-145, 179-183: what the constructor does with the result of the open call. -/
def opened (H : Host) (inputs outputs : Nat) (c : OpenCall) : Stream :=
  match H.openStream c with
  | .ok h => ⟨some h, inputs, outputs, none⟩
  | .error e => ⟨none, inputs, outputs, some (H.errorText e)⟩

/-- audio_stream.cpp 105-127, 136-137: the parameters of a direction with `n` channels on device `id`; a null pointer if there are none. -/
def params (H : Host) (id n : Nat) (latency : DevInfo → Rat) : C (Option Params) :=
  if n = 0 then .ok none else (devInfo H id).map fun d => some ⟨id, toInt n, latency d⟩

/-- The constructor on a device (audio_stream.cpp 85-146); `id` and `devRate` are the device's `id()` and `default_sample_rate()`.
The stream and the open call made. -/
def openDevice (H : Host) (id devRate inputs outputs : Nat) (sps frames : Int) : C (Stream × OpenCall) := do
  let inp ← params H id inputs DevInfo.lowIn
  let out ← params H id outputs DevInfo.lowOut
  let c := OpenCall.device inp out (if sps = -1 then toInt devRate else sps) (framesArg frames) (chooseCallback inputs outputs)
  return (opened H inputs outputs c, c)

/-- audio_stream.cpp 158-159: the rate when none is given. -/
def defaultRate (H : Host) (sps : Int) : C Int :=
  if sps = -1 then do
    let d ← devInfo H H.defaultInput
    rateToInt d.rate
  else .ok sps

/-- The constructor on the default devices (audio_stream.cpp 148-184). -/
def openDefault (H : Host) (inputs outputs : Nat) (sps frames : Int) : C (Stream × OpenCall) := do
  let sps ← defaultRate H sps
  let c := OpenCall.dflt (toInt inputs) (toInt outputs) sps (framesArg frames) (chooseCallback inputs outputs)
  return (opened H inputs outputs c, c)

/-- The member functions (q_io/audio_stream.hpp 36-48). -/
inductive Op where
  | start | stop | isValid | time | cpuLoad | error | inputLatency | outputLatency | samplingRate | inputChannels | outputChannels
  deriving DecidableEq

/-- Their results. -/
inductive Val where
  | unit
  | bool (b : Bool)
  | num (q : Rat)
  | text (s : String)
  deriving DecidableEq

/-- Conversion of a `double` to `std::uint32_t`: undefined when out of range. -/
def rateToU32 (r : Rat) : C Nat :=
  if -1 < r ∧ r.floor < 2 ^ 32 then .ok r.floor.toNat else .error .badFloatCast

/-- A member function: its result and the calls made to the host (audio_stream.cpp 195-240, q_io/audio_stream.hpp 39-48). -/
def call (H : Host) (s : Stream) : Op → C (Val × List HostCall)
  | .start => .ok (.unit, match s.impl with | some h => [.start h] | none => [])
  | .stop => .ok (.unit, match s.impl with | some h => [.stop h] | none => [])
  | .isValid => .ok (.bool s.impl.isSome, [])
  | .time => match s.impl with
    | some h => .ok (.num (H.time h), [.getTime h])
    | none => .ok (.num 0, [])
  | .cpuLoad => match s.impl with
    | some h => .ok (.num (H.load h), [.getLoad h])
    | none => .ok (.num (-1), [])
  | .error => match s.error with
    | some t => .ok (.text t, [])
    | none => .error .uninit
  | .inputLatency => match s.impl with
    | some h => .ok (.num (H.info h).inLatency, [.getInfo h])
    | none => .ok (.num 0, [])
  | .outputLatency => match s.impl with
    | some h => .ok (.num (H.info h).outLatency, [.getInfo h])
    | none => .ok (.num 0, [])
  | .samplingRate => match s.impl with
    | some h => do
      let r ← rateToU32 (H.info h).rate
      return (.num r, [.getInfo h])
    | none => .ok (.num 0, [])
  | .inputChannels => .ok (.num s.inputs, [])
  | .outputChannels => .ok (.num s.outputs, [])

/-- The destructor (audio_stream.cpp 186-193). -/
def destroy (H : Host) (s : Stream) : C (List HostCall) :=
  match s.impl with
  | some h => if H.close h = 0 then .ok [.close h] else .error .assertFail
  | none => .ok []

/-- Member functions in sequence: the results and all calls made to the host. -/
def calls (H : Host) (s : Stream) : List Op → C (List Val × List HostCall)
  | [] => .ok ([], [])
  | o :: os => do
    let (v, t) ← call H s o
    let (vs, ts) ← calls H s os
    return (v :: vs, t ++ ts)

/-- The life of a stream after its construction: member functions, then the destructor. -/
def life (H : Host) (s : Stream) (os : List Op) : C (List Val × List HostCall) := do
  let (vs, ts) ← calls H s os
  let d ← destroy H s
  return (vs, ts ++ d)

/-! ## The callbacks -/

/-- `audio_channels<T>` (q/support/audio_stream.hpp 16-54): the buffers it points at, `size()` and the number of frames. -/
structure Channels (α : Type) where
  buffers : List (List α)
  size : Nat
  frames : Nat
  deriving DecidableEq

/-- `channels[channel]` (q/support/audio_stream.hpp 79-85): the range of samples of a channel. -/
def Channels.channel {α} (c : Channels α) (channel : Nat) : C (List α) := do
  let b ← readAt c.buffers channel
  if b.length < c.frames then .error .oobRead else return b.take c.frames

/-- The call of one of the three overloads of `process` (q/support/audio_stream.hpp 71-73). -/
inductive Process (α : Type) where
  | inp (i : Channels α)
  | out (o : Channels α)
  | inOut (i o : Channels α)
  deriving DecidableEq

/-- The callback functions (audio_stream.cpp 15-35, 38-57, 60-79): the call of `process` they make. A null pointer is `none`. -/
def callback {α} (cb : Callback) (s : Stream) (input output : Option (List (List α))) (frames : Nat) : C (Process α) :=
  match cb with
  | .both => match input, output with
    | some i, some o => .ok (.inOut ⟨i, s.inputs, frames⟩ ⟨o, s.outputs, frames⟩)
    | _, _ => .error .assertFail
  | .input => match input with
    | some i => .ok (.inp ⟨i, s.inputs, frames⟩)
    | none => .error .assertFail
  | .output => match output with
    | some o => .ok (.out ⟨o, s.outputs, frames⟩)
    | none => .error .assertFail

/-! ## MIDI input streams -/

/-- Calls made to PortMidi. -/
inductive PmCall where
  | openInput (id : Int)
  | read (h : Nat)
  /-- `Pm_Close`; `none` is a null pointer -/
  | close (h : Option Nat)
  deriving DecidableEq

/-- `input_stream_init` (midi_stream.cpp 18-28): the handle (or null) and the call made. -/
def midiOpen (pm : Int → Except Int Nat) (id : Int) : Option Nat × PmCall :=
  (match pm id with | .ok h => some h | .error _ => none, .openInput id)

/-- `next` (midi_stream.cpp 46-60), called once by `process` and `process_raw`: the call made. -/
def midiPoll : Option Nat → List PmCall
  | some h => [.read h]
  | none => []

/-- The life of a MIDI stream on device `id`, polled `n` times and destroyed (midi_stream.cpp 31-44): the calls made. -/
def midiLife (pm : Int → Except Int Nat) (id : Int) (n : Nat) : List PmCall :=
  let (h, c) := midiOpen pm id
  c :: (List.replicate n (midiPoll h)).flatten ++ [.close h]

end AudioStream
end Verif
