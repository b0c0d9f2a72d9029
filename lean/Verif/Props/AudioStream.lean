import Verif.Model.AudioStream
import Mathlib.Tactic.Linarith
import Mathlib.Tactic.NormNum
import Mathlib.Algebra.Order.Floor.Ring
import Mathlib.Data.Rat.Floor
/-!
# C89: audio and MIDI stream life cycle, and what the audio callback hands to `process`
-/
namespace Verif
open AudioStream

theorem toInt_small {n : Nat} (h : n < 2 ^ 31) : toInt n = n := by
  unfold toInt
  rw [Nat.mod_eq_of_lt (by omega), if_pos (by omega)]

theorem toInt_zero : toInt 0 = 0 := by decide
theorem toInt_big : toInt (2 ^ 32 + 1) = 1 := by decide

attribute [local irreducible] toInt toULong

/-- The number of channels the host was asked to open for input and for output. -/
def AudioStream.OpenCall.channels : OpenCall → Int × Int
  | .device i o _ _ _ => ((i.map Params.channels).getD 0, (o.map Params.channels).getD 0)
  | .dflt i o _ _ _ => (i, o)

/-- The sampling rate the host was asked for. -/
def AudioStream.OpenCall.rate : OpenCall → Int
  | .device _ _ r _ _ => r
  | .dflt _ _ r _ _ => r

/-- The callback handed to the host. -/
def AudioStream.OpenCall.cb : OpenCall → Callback
  | .device _ _ _ _ c => c
  | .dflt _ _ _ _ c => c

/-- The buffer size the host was asked for (0: unspecified). -/
def AudioStream.OpenCall.frames : OpenCall → Nat
  | .device _ _ _ f _ => f
  | .dflt _ _ _ f _ => f

/-- The stream an object is after the host answered an open call: valid with the host's handle, or invalid with the host's error text. -/
def Outcome (H : Host) (c : OpenCall) (s : Stream) : Prop :=
  (∀ h, H.openStream c = .ok h → s.impl = some h) ∧
  (∀ e, H.openStream c = .error e → s.impl = none ∧ call H s .error = .ok (.text (H.errorText e), []))

theorem opened_outcome (H : Host) (i o : Nat) (c : OpenCall) :
    Outcome H c (opened H i o c) ∧ (opened H i o c).inputs = i ∧ (opened H i o c).outputs = o := by
  unfold Outcome opened
  cases e : H.openStream c with
  | ok h => simp
  | error e => simp [call]

/-- **C89.** Opening a stream on a listed device asks the host once, for exactly the numbers of channels requested, on that device
(no parameters for a direction without channels), with that device's latencies, at the rate requested or the device's default rate, and the
stream is then valid with the host's handle or invalid with the host's error text. -/
theorem C89_open_device (H : Host) (id devRate inputs outputs : Nat) (sps frames : Int) (d : DevInfo)
    (hid : H.devices[id]? = some d) (hi : inputs < 2 ^ 31) (ho : outputs < 2 ^ 31) (hr : devRate < 2 ^ 31) :
    ∃ s c, openDevice H id devRate inputs outputs sps frames = .ok (s, c) ∧ Outcome H c s ∧
      s.inputs = inputs ∧ s.outputs = outputs ∧
      c = .device (if inputs = 0 then none else some ⟨id, inputs, d.lowIn⟩) (if outputs = 0 then none else some ⟨id, outputs, d.lowOut⟩)
        (if sps = -1 then devRate else sps) c.frames c.cb ∧
      (frames = -1 → c.frames = 0) ∧ (0 ≤ frames → frames < 2 ^ 31 → c.frames = frames) := by
  have hd : devInfo H id = .ok d := by
    unfold devInfo
    rw [if_neg (by omega), Int.toNat_natCast, hid]
  have hf1 : frames = -1 → framesArg frames = 0 := by intro h; simp [framesArg, h, toULong]
  have hf2 : 0 ≤ frames → frames < 2 ^ 31 → (framesArg frames : Int) = frames := by
    intro h1 h2
    unfold framesArg toULong
    rw [if_neg (by omega)]
    omega
  have hp : ∀ n (l : DevInfo → Rat), n < 2 ^ 31 → params H id n l = .ok (if n = 0 then none else some ⟨id, n, l d⟩) := by
    intro n l hn
    unfold params
    split_ifs
    · rfl
    · rw [hd, toInt_small hn]; rfl
  unfold openDevice
  rw [hp _ _ hi, hp _ _ ho, toInt_small hr]
  exact ⟨_, _, rfl, (opened_outcome ..).1, (opened_outcome ..).2.1, (opened_outcome ..).2.2, rfl, hf1, hf2⟩

/-- **C89.** Opening a stream on the default devices with an explicit rate asks the host once, for exactly what was requested. -/
theorem C89_open_default (H : Host) (inputs outputs : Nat) (sps frames : Int)
    (hi : inputs < 2 ^ 31) (ho : outputs < 2 ^ 31) (hs : sps ≠ -1) :
    ∃ s c, openDefault H inputs outputs sps frames = .ok (s, c) ∧ Outcome H c s ∧ s.inputs = inputs ∧ s.outputs = outputs ∧
      c = .dflt inputs outputs sps c.frames c.cb ∧
      (frames = -1 → c.frames = 0) ∧ (0 ≤ frames → frames < 2 ^ 31 → c.frames = frames) := by
  have hf1 : frames = -1 → framesArg frames = 0 := by intro h; simp [framesArg, h, toULong]
  have hf2 : 0 ≤ frames → frames < 2 ^ 31 → (framesArg frames : Int) = frames := by
    intro h1 h2
    unfold framesArg toULong
    rw [if_neg (by omega)]
    omega
  unfold openDefault defaultRate
  rw [if_neg hs, toInt_small hi, toInt_small ho]
  exact ⟨_, _, rfl, (opened_outcome ..).1, (opened_outcome ..).2.1, (opened_outcome ..).2.2, rfl, hf1, hf2⟩

/-- **C89.** Without a rate, the default *input* device's rate is used, whatever is opened... -/
theorem C89_default_rate (H : Host) (inputs outputs : Nat) (frames : Int) (d : DevInfo) (i : Nat)
    (hdef : H.defaultInput = i) (hid : H.devices[i]? = some d) (h0 : 0 ≤ d.rate) (h1 : d.rate.floor < 2 ^ 31) :
    ∃ s c, openDefault H inputs outputs (-1) frames = .ok (s, c) ∧ c.rate = ⌊d.rate⌋ := by
  have hd : devInfo H H.defaultInput = .ok d := by
    unfold devInfo
    rw [hdef, if_neg (by omega), Int.toNat_natCast, hid]
  have hr : defaultRate H (-1) = .ok d.rate.floor := by
    unfold defaultRate rateToInt
    rw [if_pos rfl, hd]
    simp only [bind, Except.bind]
    rw [if_pos ⟨by linarith, h1⟩, if_neg (not_lt.mpr h0)]
  unfold openDefault
  rw [hr]
  exact ⟨_, _, rfl, rfl⟩

/-- **C89.** ... so the claim that a stream opens at the default rate of its device is false of output-only streams: without any input device
the constructor dereferences a null pointer. -/
theorem C89_default_rate_violation (H : Host) (h : H.defaultInput = -1) (outputs : Nat) (frames : Int) :
    openDefault H 0 outputs (-1) frames = .error .nullDeref := by
  unfold openDefault defaultRate devInfo
  rw [if_pos rfl, h]
  rfl

/-- The `process` call a stream must make for given buffers: by the channels the stream was opened with. -/
def Handed {α} (inputs outputs : Nat) (input output : Option (List (List α))) (frames : Nat) (p : Process α) : Prop :=
  (inputs ≠ 0 → outputs ≠ 0 → ∃ i o, input = some i ∧ output = some o ∧ p = .inOut ⟨i, inputs, frames⟩ ⟨o, outputs, frames⟩) ∧
  (inputs ≠ 0 → outputs = 0 → ∃ i, input = some i ∧ p = .inp ⟨i, inputs, frames⟩) ∧
  (inputs = 0 → ∃ o, output = some o ∧ p = .out ⟨o, outputs, frames⟩)

/-- What PortAudio guarantees about one direction of a callback, given the number of channels it was asked to open: a null pointer if there
are none, otherwise that many buffers of `frames` samples. -/
def Delivers {α} (channels : Int) (bufs : Option (List (List α))) (frames : Nat) : Prop :=
  match bufs with
  | none => channels = 0
  | some b => channels = b.length ∧ b ≠ [] ∧ ∀ x ∈ b, x.length = frames

/-- The channel ranges handed to `process` are exactly the host's buffers, all of them and nothing else. -/
def Exact {α} (c : Channels α) (b : List (List α)) : Prop :=
  c.size = b.length ∧ (∀ k (h : k < b.length), c.channel k = .ok b[k])

theorem exact_of {α} {b : List (List α)} {n frames : Nat} (hn : n = b.length) (hb : ∀ x ∈ b, x.length = frames) :
    Exact ⟨b, n, frames⟩ b := by
  refine ⟨hn, fun k h => ?_⟩
  unfold Channels.channel
  rw [readAt_ok h]
  have hl := hb _ (List.getElem_mem h)
  simp only [bind, Except.bind]
  rw [if_neg (by simp [hl])]
  show Except.ok _ = _
  rw [List.take_of_length_le (by omega)]

theorem params_channels {H : Host} {id n : Nat} {l : DevInfo → Rat} {q : Option Params} (e : params H id n l = .ok q) :
    (q.map Params.channels).getD 0 = toInt n := by
  unfold params at e
  generalize ht : toInt n = t at *
  split_ifs at e with hn
  · have ht0 : t = 0 := by rw [← ht, hn, toInt_zero]
    rw [← Except.ok.inj e, ht0]; rfl
  · cases hd : devInfo H id with
    | error _ => rw [hd] at e; exact absurd e (by simp [Except.map])
    | ok d =>
      rw [hd] at e
      rw [← Except.ok.inj e]
      simp only [Option.map_some, Option.getD_some]

/-- Facts about every constructed stream: they follow from either constructor. -/
structure Shape (H : Host) (inputs outputs : Nat) (s : Stream) (c : OpenCall) : Prop where
  inp : s.inputs = inputs
  out : s.outputs = outputs
  chan : c.channels = (toInt inputs, toInt outputs)
  cb : c.cb = chooseCallback inputs outputs
  res : Outcome H c s

theorem default_shape {H : Host} {inputs outputs : Nat} {sps frames : Int} {s : Stream} {c : OpenCall}
    (h : openDefault H inputs outputs sps frames = .ok (s, c)) : Shape H inputs outputs s c := by
  unfold openDefault at h
  cases hs : defaultRate H sps with
  | error e => rw [hs] at h; exact absurd h (by simp [bind, Except.bind])
  | ok v =>
    rw [hs] at h
    simp only [bind, Except.bind, pure, Except.pure, Except.ok.injEq, Prod.mk.injEq] at h
    obtain ⟨rfl, rfl⟩ := h
    exact ⟨(opened_outcome ..).2.1, (opened_outcome ..).2.2, by simp only [OpenCall.channels], by simp only [OpenCall.cb], (opened_outcome ..).1⟩

theorem device_shape {H : Host} {id r inputs outputs : Nat} {sps frames : Int} {s : Stream} {c : OpenCall}
    (h : openDevice H id r inputs outputs sps frames = .ok (s, c)) : Shape H inputs outputs s c := by
  unfold openDevice at h
  cases e1 : params H id inputs DevInfo.lowIn with
  | error _ => rw [e1] at h; exact absurd h (by simp [bind, Except.bind])
  | ok i =>
    cases e2 : params H id outputs DevInfo.lowOut with
    | error _ => rw [e1, e2] at h; exact absurd h (by simp [bind, Except.bind])
    | ok o =>
      rw [e1, e2] at h
      simp only [bind, Except.bind, pure, Except.pure, Except.ok.injEq, Prod.mk.injEq] at h
      obtain ⟨rfl, rfl⟩ := h
      exact ⟨(opened_outcome ..).2.1, (opened_outcome ..).2.2, by simp only [OpenCall.channels, params_channels e1, params_channels e2],
        by simp only [OpenCall.cb], (opened_outcome ..).1⟩

theorem call_shape {H : Host} {inputs outputs : Nat} {sps frames : Int} {s : Stream} {c : OpenCall}
    (hopen : openDefault H inputs outputs sps frames = .ok (s, c) ∨ ∃ id devRate, openDevice H id devRate inputs outputs sps frames = .ok (s, c)) :
    Shape H inputs outputs s c := by
  rcases hopen with h | ⟨id, r, h⟩
  · exact default_shape h
  · exact device_shape h

/-- **C89.** In every callback of a stream opened (by either constructor) with at least one channel, exactly one overload of `process` is called: the
one for the directions opened; it gets all channels the host delivers and all their samples, and nothing else. -/
theorem C89_process {α : Type} (H : Host) (inputs outputs : Nat) (sps frames : Int) (s : Stream) (c : OpenCall)
    (hopen : openDefault H inputs outputs sps frames = .ok (s, c) ∨ ∃ id devRate, openDevice H id devRate inputs outputs sps frames = .ok (s, c))
    (hi : inputs < 2 ^ 31) (ho : outputs < 2 ^ 31) (hc : inputs ≠ 0 ∨ outputs ≠ 0)
    (input output : Option (List (List α))) (n : Nat)
    (d1 : Delivers c.channels.1 input n) (d2 : Delivers c.channels.2 output n) :
    ∃ p, callback c.cb s input output n = .ok p ∧ Handed inputs outputs input output n p ∧
      (∀ i, input = some i → Exact ⟨i, inputs, n⟩ i) ∧ (∀ o, output = some o → Exact ⟨o, outputs, n⟩ o) := by
  obtain ⟨e1, e2, e3, e4, -⟩ := call_shape hopen
  rw [e3] at d1
  change Delivers (toInt inputs) input n at d1
  rw [toInt_small hi] at d1
  rw [e3] at d2
  change Delivers (toInt outputs) output n at d2
  rw [toInt_small ho] at d2
  have x1 : ∀ i, input = some i → Exact ⟨i, inputs, n⟩ i := by
    rintro i rfl
    exact exact_of (by exact_mod_cast d1.1) d1.2.2
  have x2 : ∀ i, output = some i → Exact ⟨i, outputs, n⟩ i := by
    rintro i rfl
    exact exact_of (by exact_mod_cast d2.1) d2.2.2
  have y1 : inputs ≠ 0 → ∃ i, input = some i := by
    intro h
    cases input with
    | none => exact absurd (show (inputs : Int) = 0 from d1) (by exact_mod_cast h)
    | some i => exact ⟨i, rfl⟩
  have y2 : outputs ≠ 0 → ∃ i, output = some i := by
    intro h
    cases output with
    | none => exact absurd (show (outputs : Int) = 0 from d2) (by exact_mod_cast h)
    | some i => exact ⟨i, rfl⟩
  rw [e4]
  unfold chooseCallback
  by_cases h1 : inputs = 0
  · have h2 : outputs ≠ 0 := hc.resolve_left (fun h => h h1)
    obtain ⟨o, rfl⟩ := y2 h2
    rw [if_neg (by simp [h1]), if_neg (by simp [h1])]
    refine ⟨_, rfl, ⟨fun h => absurd h1 h, fun h => absurd h1 h, fun _ => ⟨o, rfl, by rw [e2]⟩⟩, x1, x2⟩
  · obtain ⟨i, rfl⟩ := y1 h1
    by_cases h2 : outputs = 0
    · rw [if_neg (by simp [h2]), if_pos h1]
      refine ⟨_, rfl, ⟨fun _ h => absurd h2 h, fun _ _ => ⟨i, rfl, by rw [e1]⟩, fun h => absurd h h1⟩, x1, x2⟩
    · obtain ⟨o, rfl⟩ := y2 h2
      rw [if_pos ⟨h1, h2⟩]
      refine ⟨_, rfl, ⟨fun _ _ => ⟨i, o, rfl, rfl, by rw [e1, e2]⟩, fun _ h => absurd h h2, fun h => absurd h h1⟩, x1, x2⟩

/-- **C89.** A channel count is handed to the host as an `int`: a stream for 2^32 + 1 outputs is opened with one channel, and told it has 2^32 + 1, so the
second channel is out of bounds. -/
theorem C89_channels_violation {α : Type} (H : Host) (sps frames : Int) (hs : sps ≠ -1) (x : List α) :
    ∃ s c, openDefault H 0 (2 ^ 32 + 1) sps frames = .ok (s, c) ∧ c.channels = (0, 1) ∧ s.outputs = 2 ^ 32 + 1 ∧
      ∃ o : Channels α, callback c.cb s none (some [x]) x.length = .ok (.out o) ∧ 1 < o.size ∧ o.channel 1 = .error .oobRead := by
  unfold openDefault defaultRate
  rw [if_neg hs, toInt_zero, toInt_big]
  refine ⟨_, _, rfl, rfl, (opened_outcome ..).2.2, ⟨[x], 2 ^ 32 + 1, x.length⟩, ?_, ?_, rfl⟩
  · simp only [OpenCall.cb, chooseCallback]
    rw [if_neg (by simp), if_neg (by simp)]
    unfold callback
    simp only [(opened_outcome ..).2.2]
  · norm_num

/-- A call on an open stream: not an open, not a close. -/
def OnHandle (h : Nat) : HostCall → Prop
  | .start g | .stop g | .getInfo g | .getTime g | .getLoad g => g = h
  | .openStream _ | .close _ => False

/-- The starts and stops among the host calls, `true` for a start. -/
def hostStarts : List HostCall → List Bool :=
  List.filterMap fun | .start _ => some true | .stop _ => some false | _ => none

/-- The starts and stops among the member function calls. -/
def userStarts : List Op → List Bool :=
  List.filterMap fun | .start => some true | .stop => some false | _ => none

/-- The values reported by a valid stream: what the host says about it. -/
def Reports (H : Host) (s : Stream) (h : Nat) : Op → Val → Prop
  | .start, v | .stop, v => v = .unit
  | .isValid, v => v = .bool true
  | .time, v => v = .num (H.time h)
  | .cpuLoad, v => v = .num (H.load h)
  | .error, _ => False
  | .inputLatency, v => v = .num (H.info h).inLatency
  | .outputLatency, v => v = .num (H.info h).outLatency
  | .samplingRate, v => v = .num (⌊(H.info h).rate⌋ : Int)
  | .inputChannels, v => v = .num s.inputs
  | .outputChannels, v => v = .num s.outputs

/-- The neutral values reported by an invalid stream. -/
def Neutral (s : Stream) (text : String) : Op → Val
  | .start | .stop => .unit
  | .isValid => .bool false
  | .time | .inputLatency | .outputLatency | .samplingRate => .num 0
  | .cpuLoad => .num (-1)
  | .error => .text text
  | .inputChannels => .num s.inputs
  | .outputChannels => .num s.outputs

theorem call_valid (H : Host) (s : Stream) (h : Nat) (hv : s.impl = some h) (h0 : 0 ≤ (H.info h).rate) (h1 : (H.info h).rate.floor < 2 ^ 32)
    (o : Op) (ho : o ≠ .error) :
    ∃ v t, call H s o = .ok (v, t) ∧ Reports H s h o v ∧ (∀ x ∈ t, OnHandle h x) ∧ hostStarts t = userStarts [o] := by
  cases o with
  | error => exact absurd rfl ho
  | samplingRate =>
    refine ⟨.num (⌊(H.info h).rate⌋ : Int), [.getInfo h], ?_, rfl, ?_, ?_⟩
    · simp only [call, hv, rateToU32]
      rw [if_pos ⟨by linarith, h1⟩]
      simp only [bind, Except.bind, pure, Except.pure]
      have : ((⌊(H.info h).rate⌋.toNat : Int) : Int) = ⌊(H.info h).rate⌋ := Int.toNat_of_nonneg (Int.floor_nonneg.mpr h0)
      have e : (((H.info h).rate.floor.toNat : Nat) : Rat) = ((⌊(H.info h).rate⌋ : Int) : Rat) := by
        have h2 : ((H.info h).rate.floor.toNat : Int) = ⌊(H.info h).rate⌋ := this
        rw [← h2]; exact (Int.cast_natCast _).symm
      rw [e]
    · simp [OnHandle]
    · rfl
  | _ =>
    refine ⟨_, _, by simp only [call, hv]; rfl, ?_, ?_, ?_⟩ <;> simp [Reports, OnHandle, hostStarts, userStarts]

theorem calls_valid (H : Host) (s : Stream) (h : Nat) (hv : s.impl = some h) (h0 : 0 ≤ (H.info h).rate) (h1 : (H.info h).rate.floor < 2 ^ 32)
    (os : List Op) (ho : Op.error ∉ os) :
    ∃ vs t, calls H s os = .ok (vs, t) ∧ List.Forall₂ (Reports H s h) os vs ∧ (∀ x ∈ t, OnHandle h x) ∧ hostStarts t = userStarts os := by
  induction os with
  | nil => exact ⟨[], [], rfl, .nil, by simp, rfl⟩
  | cons o os ih =>
    obtain ⟨vs, t, e, r, u, w⟩ := ih (fun h => ho (List.mem_cons_of_mem _ h))
    obtain ⟨v, t1, e1, r1, u1, w1⟩ := call_valid H s h hv h0 h1 o (fun h => ho (by simp [h]))
    refine ⟨v :: vs, t1 ++ t, ?_, .cons r1 r, ?_, ?_⟩
    · simp only [calls, e1, e, bind, Except.bind, pure, Except.pure]
    · intro x hx
      rcases List.mem_append.mp hx with hx | hx
      · exact u1 x hx
      · exact u x hx
    · unfold hostStarts at *
      rw [List.filterMap_append, w1, w]
      unfold userStarts
      rw [← List.filterMap_append]
      rfl

/-- **C89.** The whole life of a stream that opened: every host call is on its handle, each start and stop is passed on, in order, every query returns what the
host says (the rate rounded down), and the stream is closed exactly once, at the end. `error()` is excluded: see `C89_error_violation`. -/
theorem C89_lifecycle (H : Host) (inputs outputs : Nat) (sps frames : Int) (s : Stream) (c : OpenCall) (h : Nat)
    (hopen : openDefault H inputs outputs sps frames = .ok (s, c) ∨ ∃ id devRate, openDevice H id devRate inputs outputs sps frames = .ok (s, c))
    (hok : H.openStream c = .ok h) (hclose : H.close h = 0) (h0 : 0 ≤ (H.info h).rate) (h1 : (H.info h).rate.floor < 2 ^ 32)
    (os : List Op) (ho : Op.error ∉ os) :
    ∃ vs body, life H s os = .ok (vs, body ++ [.close h]) ∧ List.Forall₂ (Reports H s h) os vs ∧
      (∀ x ∈ body, OnHandle h x) ∧ hostStarts body = userStarts os := by
  have hv := ((call_shape hopen).res).1 h hok
  obtain ⟨vs, t, e, r, u, w⟩ := calls_valid H s h hv h0 h1 os ho
  refine ⟨vs, t, ?_, r, u, w⟩
  unfold life destroy
  simp only [e, hv, bind, Except.bind, hclose, if_true, pure, Except.pure]

/-- **C89.** A stream that failed to open makes no host call whatsoever after the failed open, not even a close, reports neutral values, and gives the host's
error text. -/
theorem C89_invalid (H : Host) (inputs outputs : Nat) (sps frames : Int) (s : Stream) (c : OpenCall) (code : Int)
    (hopen : openDefault H inputs outputs sps frames = .ok (s, c) ∨ ∃ id devRate, openDevice H id devRate inputs outputs sps frames = .ok (s, c))
    (herr : H.openStream c = .error code) (os : List Op) :
    life H s os = .ok (os.map (Neutral s (H.errorText code)), []) := by
  obtain ⟨hv, he⟩ := ((call_shape hopen).res).2 code herr
  have h1 : ∀ o, call H s o = .ok (Neutral s (H.errorText code) o, []) := by
    intro o
    cases o with
    | error => exact he
    | _ => simp [call, hv, Neutral]
  have h2 : calls H s os = .ok (os.map (Neutral s (H.errorText code)), []) := by
    induction os with
    | nil => rfl
    | cons o os ih => simp only [calls, h1, ih, bind, Except.bind, pure, Except.pure, List.map_cons, List.append_nil]
  unfold life destroy
  simp only [h2, hv, bind, Except.bind, pure, Except.pure, List.append_nil]

/-- **C89.** On a valid stream `error()` reads an uninitialised pointer: nothing sets it when opening succeeds. -/
theorem C89_error_violation (H : Host) (inputs outputs : Nat) (sps frames : Int) (s : Stream) (c : OpenCall) (h : Nat)
    (hopen : openDefault H inputs outputs sps frames = .ok (s, c))
    (hok : H.openStream c = .ok h) : call H s .error = .error .uninit := by
  unfold openDefault at hopen
  cases hs : defaultRate H sps with
  | error e => rw [hs] at hopen; exact absurd hopen (by simp [bind, Except.bind])
  | ok v =>
    rw [hs] at hopen
    simp only [bind, Except.bind, pure, Except.pure, Except.ok.injEq, Prod.mk.injEq] at hopen
    obtain ⟨rfl, rfl⟩ := hopen
    unfold opened
    rw [hok]
    rfl

/-- **C89.** A MIDI input stream opens its device once, reads once per poll, and closes once, at the end; a stream that failed to open never reads. It still calls
`Pm_Close`, with a null pointer. -/
theorem C89_midi (pm : Int → Except Int Nat) (id : Int) (n : Nat) :
    (∀ h, pm id = .ok h → midiLife pm id n = .openInput id :: (List.replicate n (.read h) ++ [.close (some h)])) ∧
    (∀ e, pm id = .error e → midiLife pm id n = [.openInput id, .close none]) := by
  constructor
  · intro h e
    simp only [midiLife, midiOpen, e, midiPoll, List.cons_append, List.cons.injEq, true_and]
    congr 1
    induction n with
    | zero => rfl
    | succ n ih => simp [List.replicate_succ, ih]
  · intro c e
    simp only [midiLife, midiOpen, e, midiPoll]
    simp

/-- A host for the examples: one microphone at 16 kHz, one output at 48 kHz; it opens every stream. -/
def exampleHost : Host where
  devices := [⟨1/100, 0, 16000⟩, ⟨0, 1/50, 48000⟩]
  defaultInput := 0
  openStream := fun _ => .ok 7
  errorText := fun _ => "error"
  info := fun _ => ⟨1/100, 1/50, 44100⟩
  time := fun _ => 0
  load := fun _ => 0
  close := fun _ => 0

/-- **C89.** With this host an output-only stream is opened at the rate of the microphone. -/
theorem C89_default_rate_counterexample :
    ∃ s c, openDefault exampleHost 0 2 (-1) (-1) = .ok (s, c) ∧ c.rate = 16000 := by
  obtain ⟨s, c, e, r⟩ := C89_default_rate exampleHost 0 2 (-1) ⟨1/100, 0, 16000⟩ 0 rfl rfl (by norm_num) (by decide)
  exact ⟨s, c, e, by rw [r]; exact (Int.floor_natCast 16000)⟩

/-- The hypotheses are satisfiable: a stream opens, is started and stopped. -/
example : ∃ s c, openDefault exampleHost 1 2 44100 (-1) = .ok (s, c) ∧ exampleHost.openStream c = .ok 7 ∧
    life exampleHost s [.start, .cpuLoad, .stop] = .ok ([.unit, .num 0, .unit], [.start 7, .getLoad 7, .stop 7, .close 7]) := ⟨_, _, rfl, rfl, rfl⟩

example : Delivers 2 (some [[(1 : Nat), 2, 3], [4, 5, 6]]) 3 := ⟨rfl, by decide, by decide⟩

end Verif
