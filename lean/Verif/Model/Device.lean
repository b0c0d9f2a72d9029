import Verif.Model.UB
/-!
# Device lists: `q_io/src/audio_device.cpp`, `q_io/src/midi_device.cpp`

The host API (PortAudio, PortMidi) is the list of device descriptions it reports at the time of the call.
Names and sample rates are carried in `info`.
-/
namespace Verif
namespace Device

/-- `PaDeviceInfo` / `PmDeviceInfo`: what the host reports about a device. -/
structure HostInfo where
  inputs : Nat
  outputs : Nat
  info : String
  deriving DecidableEq, Repr

/-- `audio_device::impl` (audio_device.cpp 38-44), `midi_device::impl` (midi_device.cpp 13-19). -/
structure Impl where
  id : Nat
  inputs : Nat
  outputs : Nat
  info : String
  deriving DecidableEq, Repr

/-- The devices pushed by the enumeration loop for the host list (audio_device.cpp 59-73, midi_device.cpp 77-91): those with a
channel, numbered by their host index; `i` is the index of the head of the list. -/
def enumerate : Nat → List HostInfo → List Impl
  | _, [] => []
  | i, h :: t =>
    if h.inputs ≠ 0 ∨ h.outputs ≠ 0 then ⟨i, h.inputs, h.outputs, h.info⟩ :: enumerate (i + 1) t
    else enumerate (i + 1) t

/-- `audio_device::impl::get_devices()` (audio_device.cpp 46-76): the static vector before, the host's devices now; the static vector
after.  Simplification: `Pa_GetDeviceCount` does not fail (a negative count). -/
def getDevices (cache : List Impl) (host : List HostInfo) : List Impl :=
  if host.length ≠ 0 ∧ cache.length ≠ host.length then enumerate 0 host else cache

/-- `audio_device::list()` (audio_device.cpp 104-111): the new static vector, which is also what is returned. -/
def audioList (cache : List Impl) (host : List HostInfo) : List Impl := getDevices cache host

/-- `audio_device::get(device_id)` (audio_device.cpp 113-116): `get_devices()[device_id]`. -/
def audioGet (cache : List Impl) (host : List HostInfo) (device_id : Nat) : C Impl :=
  readAt (getDevices cache host) device_id

/-- `midi_device::list()` (midi_device.cpp 66-97): the static vector before; the new static vector, which is also what is returned.
It is not cleared. -/
def midiList (cache : List Impl) (host : List HostInfo) : List Impl := cache ++ enumerate 0 host

end Device
end Verif
