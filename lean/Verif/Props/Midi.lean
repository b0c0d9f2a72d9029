import Verif.Model.Midi
import Verif.Model.Stream
import Mathlib.Tactic.IntervalCases
/-!
# MIDI messages, dispatch and the input stream (C36, C37, C38, C67)
-/
namespace Verif
open Midi

namespace Midi

/-- The MIDI 1.0 status table (specification): which message a status byte announces, and how many data bytes
follow it. -/
def specKind (s : BitVec 8) : Option (Kind × Nat) :=
  if 0x80 ≤ s.toNat ∧ s.toNat < 0x90 then some (.noteOff, 2)
  else if 0x90 ≤ s.toNat ∧ s.toNat < 0xa0 then some (.noteOn, 2)
  else if 0xa0 ≤ s.toNat ∧ s.toNat < 0xb0 then some (.polyAftertouch, 2)
  else if 0xb0 ≤ s.toNat ∧ s.toNat < 0xc0 then some (.controlChange, 2)
  else if 0xc0 ≤ s.toNat ∧ s.toNat < 0xd0 then some (.programChange, 1)
  else if 0xd0 ≤ s.toNat ∧ s.toNat < 0xe0 then some (.channelAftertouch, 1)
  else if 0xe0 ≤ s.toNat ∧ s.toNat < 0xf0 then some (.pitchBend, 2)
  else if s.toNat = 0xf2 then some (.songPosition, 2)
  else if s.toNat = 0xf3 then some (.songSelect, 1)
  else if s.toNat = 0xf6 then some (.tuneRequest, 0)
  else if s.toNat = 0xf8 then some (.timingTick, 0)
  else if s.toNat = 0xfa then some (.start, 0)
  else if s.toNat = 0xfb then some (.continue_, 0)
  else if s.toNat = 0xfc then some (.stop, 0)
  else if s.toNat = 0xfe then some (.activeSensing, 0)
  else if s.toNat = 0xff then some (.reset, 0)
  else none

/-- The message with status `s` and data bytes `b1`, `b2` (specification). -/
def specMsg (s b1 b2 : BitVec 8) : Option Msg :=
  (specKind s).map fun k => ⟨k.1, s :: [b1, b2].take k.2⟩

/-- The layout of a raw message (midi.hpp 140-146): status in the least significant byte, then the two data
bytes, then an unused byte. -/
def pack (s b1 b2 b3 : BitVec 8) : BitVec 32 := (b3 ++ b2 ++ b1 ++ s : BitVec 32)

theorem pack_and (s b1 b2 b3 : BitVec 8) (k : BitVec 8) :
    pack s b1 b2 b3 &&& k.zeroExtend 32 = (s &&& k).zeroExtend 32 := by
  apply BitVec.eq_of_getLsbD_eq
  intro i hi
  simp only [pack, BitVec.getLsbD_and, BitVec.getLsbD_append, BitVec.getLsbD_setWidth]
  by_cases h : i < 8
  · simp [h, hi]
  · have hk : k.getLsbD i = false := BitVec.getLsbD_of_ge k i (by omega)
    simp [hk]

theorem pack_byte0 (s b1 b2 b3 : BitVec 8) : (pack s b1 b2 b3 &&& 0xff#32).truncate 8 = s := by
  have := pack_and s b1 b2 b3 0xff#8
  rw [show (0xff#8).zeroExtend 32 = 0xff#32 from rfl] at this
  rw [this]
  apply BitVec.eq_of_getLsbD_eq
  intro i hi
  simp only [BitVec.getLsbD_setWidth, BitVec.getLsbD_and, hi]
  interval_cases i <;> simp

theorem pack_byte1 (s b1 b2 b3 : BitVec 8) : ((pack s b1 b2 b3 >>> 8) &&& 0xff#32).truncate 8 = b1 := by
  apply BitVec.eq_of_getLsbD_eq
  intro i hi
  simp only [pack, BitVec.getLsbD_setWidth, BitVec.getLsbD_and, BitVec.getLsbD_ushiftRight, BitVec.getLsbD_append, hi]
  interval_cases i <;> simp

theorem pack_byte2 (s b1 b2 b3 : BitVec 8) : ((pack s b1 b2 b3 >>> 16) &&& 0xff#32).truncate 8 = b2 := by
  apply BitVec.eq_of_getLsbD_eq
  intro i hi
  simp only [pack, BitVec.getLsbD_setWidth, BitVec.getLsbD_and, BitVec.getLsbD_ushiftRight, BitVec.getLsbD_append, hi]
  interval_cases i <;> simp

/-- `dispatch` only looks at the high nibble of the status byte. -/
theorem dispatch_pack (s b1 b2 b3 : BitVec 8) :
    dispatch (pack s b1 b2 b3) =
      match (s.toNat / 16) with
      | 8 => some ⟨.noteOff, [s, b1, b2]⟩
      | 9 => some ⟨.noteOn, [s, b1, b2]⟩
      | 10 => some ⟨.polyAftertouch, [s, b1, b2]⟩
      | 11 => some ⟨.controlChange, [s, b1, b2]⟩
      | 12 => some ⟨.programChange, [s, b1]⟩
      | 13 => some ⟨.channelAftertouch, [s, b1]⟩
      | 14 => some ⟨.pitchBend, [s, b1, b2]⟩
      | _ => none := by
  have e := pack_and s b1 b2 b3 0xf0#8
  rw [show (0xf0#8).zeroExtend 32 = 0xf0#32 from rfl] at e
  have h3 : message3 (pack s b1 b2 b3) = [s, b1, b2] := by
    rw [message3, pack_byte0, pack_byte1, pack_byte2]
  have h2 : message2 (pack s b1 b2 b3) = [s, b1] := by
    rw [message2, pack_byte0, pack_byte1]
  have h1 : message1 (pack s b1 b2 b3) = [s] := by
    rw [message1, pack_byte0]
  unfold dispatch
  rw [h1, h2, h3, e]
  clear h1 h2 h3 e
  generalize e1 : ((s &&& 0xf0#8).zeroExtend 32 : BitVec 32) = x
  have key : ∀ s : BitVec 8, ((s &&& 0xf0#8).zeroExtend 32 : BitVec 32) = BitVec.ofNat 32 (s.toNat / 16 * 16) := by
    decide +kernel
  rw [key] at e1
  have hb : s.toNat / 16 < 16 := by have := s.isLt; omega
  generalize s.toNat / 16 = q at *
  subst e1
  interval_cases q <;> rfl

end Midi

/-- **C36** Every channel message built from a channel 0..15 and its data reads back the same channel and data. -/
theorem C36_read_back (c a b : BitVec 8) (hc : c.toNat < 16) :
    ((noteOff c a b).channel = c ∧ (noteOff c a b).data1 = a ∧ (noteOff c a b).data2 = b) ∧
    ((noteOn c a b).channel = c ∧ (noteOn c a b).data1 = a ∧ (noteOn c a b).data2 = b) ∧
    ((polyAftertouch c a b).channel = c ∧ (polyAftertouch c a b).data1 = a ∧ (polyAftertouch c a b).data2 = b) ∧
    ((controlChange c a b).channel = c ∧ (controlChange c a b).data1 = a ∧ (controlChange c a b).data2 = b) ∧
    ((programChange c a).channel = c ∧ (programChange c a).data1 = a) ∧
    ((channelAftertouch c a).channel = c ∧ (channelAftertouch c a).data1 = a) ∧
    (pitchBend3 c (a.zeroExtend 16) b).channel = c ∧
    (∀ v, (pitchBend c v).channel = c) := by
  have key : ∀ c : BitVec 8, c.toNat < 16 → ((c ||| 0x80#8) &&& 0x0f#8 = c ∧ (c ||| 0x90#8) &&& 0x0f#8 = c ∧
    (c ||| 0xa0#8) &&& 0x0f#8 = c ∧ (c ||| 0xb0#8) &&& 0x0f#8 = c ∧ (c ||| 0xc0#8) &&& 0x0f#8 = c ∧
    (c ||| 0xd0#8) &&& 0x0f#8 = c ∧ (c ||| 0xe0#8) &&& 0x0f#8 = c) := by decide +kernel
  obtain ⟨h8, h9, ha, hb, hc', hd, he⟩ := key c hc
  exact ⟨⟨h8, rfl, rfl⟩, ⟨h9, rfl, rfl⟩, ⟨ha, rfl, rfl⟩, ⟨hb, rfl, rfl⟩, ⟨hc', rfl⟩, ⟨hd, rfl⟩, he, fun _ => he⟩

/-- **C36** Sending a channel message (its bytes packed into a raw message, whatever the unused bytes contain) and
dispatching it calls exactly the handler of its class, with the same bytes. -/
theorem C36_wire_round_trip (c a b u v : BitVec 8) (w : BitVec 16) (hc : c.toNat < 16) :
    let send := fun m : Msg => dispatch (pack (m.byte 0) (m.data.getD 1 u) (m.data.getD 2 v) u)
    send (noteOff c a b) = some (noteOff c a b) ∧
    send (noteOn c a b) = some (noteOn c a b) ∧
    send (polyAftertouch c a b) = some (polyAftertouch c a b) ∧
    send (controlChange c a b) = some (controlChange c a b) ∧
    send (programChange c a) = some (programChange c a) ∧
    send (channelAftertouch c a) = some (channelAftertouch c a) ∧
    send (pitchBend c w) = some (pitchBend c w) ∧
    send (pitchBend3 c w b) = some (pitchBend3 c w b) := by
  have key : ∀ c : BitVec 8, c.toNat < 16 → ((c ||| 0x80#8).toNat / 16 = 8 ∧ (c ||| 0x90#8).toNat / 16 = 9 ∧
    (c ||| 0xa0#8).toNat / 16 = 10 ∧ (c ||| 0xb0#8).toNat / 16 = 11 ∧ (c ||| 0xc0#8).toNat / 16 = 12 ∧
    (c ||| 0xd0#8).toNat / 16 = 13 ∧ (c ||| 0xe0#8).toNat / 16 = 14) := by decide +kernel
  obtain ⟨h8, h9, ha, hb, hc', hd, he⟩ := key c hc
  refine ⟨?_, ?_, ?_, ?_, ?_, ?_, ?_, ?_⟩ <;> refine (dispatch_pack _ _ _ _).trans ?_
  · rw [show (noteOff c a b).byte 0 = c ||| 0x80#8 from rfl, h8]; rfl
  · rw [show (noteOn c a b).byte 0 = c ||| 0x90#8 from rfl, h9]; rfl
  · rw [show (polyAftertouch c a b).byte 0 = c ||| 0xa0#8 from rfl, ha]; rfl
  · rw [show (controlChange c a b).byte 0 = c ||| 0xb0#8 from rfl, hb]; rfl
  · rw [show (programChange c a).byte 0 = c ||| 0xc0#8 from rfl, hc']; rfl
  · rw [show (channelAftertouch c a).byte 0 = c ||| 0xd0#8 from rfl, hd]; rfl
  · rw [show (pitchBend c w).byte 0 = c ||| 0xe0#8 from rfl, he]; rfl
  · rw [show (pitchBend3 c w b).byte 0 = c ||| 0xe0#8 from rfl, he]; rfl

example : (noteOn 5#8 60#8 100#8).channel = 5#8 ∧
    dispatch (pack 0x95#8 60#8 100#8 0xee#8) = some (noteOn 5#8 60#8 100#8) := by decide +kernel

/-- A channel outside 0..15 is not masked by the constructors: it corrupts the status.  `note_off` on "channel
16" is, byte for byte, `note_on` on channel 0. -/
theorem C36_channel_not_masked (a b : BitVec 8) :
    (noteOff 16#8 a b).data = (noteOn 0#8 a b).data ∧
    dispatch (pack ((noteOff 16#8 a b).byte 0) a b 0#8) = some (noteOn 0#8 a b) := by
  refine ⟨rfl, ?_⟩
  rw [dispatch_pack, show (noteOff 16#8 a b).byte 0 = 0x90#8 from rfl]; rfl

/-- **C37** `pitch_bend` and `song_position` reconstruct every 14-bit value, and their data bytes are 7-bit
clean (and, beyond the 14 bits of the standard, values below `2^15` still read back). -/
theorem C37_value_round_trip (c : BitVec 8) (v : BitVec 16) :
    (v.toNat < 2 ^ 15 → (pitchBend c v).value14 = v ∧ (songPosition v).value14 = v) ∧
    (v.toNat < 2 ^ 14 →
      ((pitchBend c v).data1.toNat < 128 ∧ (pitchBend c v).data2.toNat < 128) ∧
      ((songPosition v).data1.toNat < 128 ∧ (songPosition v).data2.toNat < 128)) := by
  have e1 : (pitchBend c v).byte 1 = (v &&& 0x7f#16).truncate 8 := rfl
  have e2 : (pitchBend c v).byte 2 = (v >>> 7).truncate 8 := rfl
  have n1 : ((v &&& 0x7f#16).truncate 8 : BitVec 8).toNat = v.toNat % 128 := by
    rw [BitVec.truncate_eq_setWidth, BitVec.toNat_setWidth, BitVec.toNat_and]
    rw [show (0x7f#16).toNat = 2 ^ 7 - 1 from rfl, Nat.and_two_pow_sub_one_eq_mod]
    omega
  have n2 : ((v >>> 7).truncate 8 : BitVec 8).toNat = v.toNat / 128 % 256 := by
    rw [BitVec.truncate_eq_setWidth, BitVec.toNat_setWidth, BitVec.toNat_ushiftRight, Nat.shiftRight_eq_div_pow]
  constructor
  · intro hv
    have : (pitchBend c v).value14 = v := by
      unfold Msg.value14
      rw [e1, e2]
      apply BitVec.eq_of_getLsbD_eq
      intro i hi
      have hv15 : v.getLsbD 15 = false := by
        rw [BitVec.getLsbD, Nat.testBit_lt_two_pow hv]
      have hv15' : v[15] = false := by rw [← BitVec.getLsbD_eq_getElem]; exact hv15
      simp only [BitVec.getLsbD_or, BitVec.getLsbD_shiftLeft, BitVec.getLsbD_setWidth, BitVec.getLsbD_and,
        BitVec.getLsbD_ushiftRight]
      interval_cases i <;> simp [hv15']
    exact ⟨this, this⟩
  · intro hv
    have h1 : (pitchBend c v).data1.toNat < 128 := by
      rw [Msg.data1, e1, n1]; omega
    have h2 : (pitchBend c v).data2.toNat < 128 := by
      rw [Msg.data2, e2, n2]; omega
    exact ⟨⟨h1, h2⟩, ⟨h1, h2⟩⟩

/-- **C37** The value read from two 7-bit data bytes is the 14-bit number they denote. -/
theorem C37_value_of_bytes (c lsb msb : BitVec 8) (hl : lsb.toNat < 128) (hm : msb.toNat < 128) :
    (pitchBend3 c (lsb.zeroExtend 16) msb).value14.toNat = lsb.toNat + 128 * msb.toNat ∧
    (songPosition2 lsb msb).value14.toNat = lsb.toNat + 128 * msb.toNat := by
  have key : ((lsb.zeroExtend 16 : BitVec 16) ||| ((msb.zeroExtend 16 : BitVec 16) <<< 7)).toNat
      = lsb.toNat + 128 * msb.toNat := by
    rw [BitVec.toNat_or, BitVec.toNat_shiftLeft, BitVec.zeroExtend, BitVec.toNat_setWidth, BitVec.toNat_setWidth]
    rw [Nat.mod_eq_of_lt (by omega : lsb.toNat < 2 ^ 16), Nat.mod_eq_of_lt (by omega : msb.toNat < 2 ^ 16),
      Nat.shiftLeft_eq, Nat.mod_eq_of_lt (by omega), Nat.or_comm,
      Nat.mul_comm msb.toNat]
    have := Nat.two_pow_add_eq_or_of_lt (i := 7) (b := lsb.toNat) (by omega) msb.toNat
    rw [← this]; omega
  constructor
  · rw [← key]
    show (((lsb.zeroExtend 16).truncate 8 : BitVec 8).zeroExtend 16 ||| ((msb.zeroExtend 16 : BitVec 16) <<< 7)).toNat = _
    rw [show ((lsb.zeroExtend 16).truncate 8 : BitVec 8) = lsb by
      apply BitVec.eq_of_toNat_eq
      simp]
  · exact key

example : (pitchBend 3#8 0x2345#16).value14 = 0x2345#16 ∧ (pitchBend 3#8 0x2345#16).data1 = 0x45#8 ∧
    (pitchBend 3#8 0x2345#16).data2 = 0x46#8 := by decide +kernel

/-- **C38** (partial: status bytes below `F0` only.)  For every raw message whose status byte is below `F0`,
`dispatch` calls exactly the handler the MIDI status table prescribes, with the message's bytes, and calls
nothing if the byte is not a status byte. -/
theorem C38_channel_dispatch_partial (s b1 b2 b3 : BitVec 8) (hs : s.toNat < 0xf0) :
    dispatch (pack s b1 b2 b3) = specMsg s b1 b2 := by
  rw [dispatch_pack, specMsg]
  have key : ∀ s : BitVec 8, s.toNat < 0xf0 → specKind s = match (s.toNat / 16) with
      | 8 => some (.noteOff, 2)
      | 9 => some (.noteOn, 2)
      | 10 => some (.polyAftertouch, 2)
      | 11 => some (.controlChange, 2)
      | 12 => some (.programChange, 1)
      | 13 => some (.channelAftertouch, 1)
      | 14 => some (.pitchBend, 2)
      | _ => none := by decide +kernel
  rw [key s hs]
  have hb : s.toNat / 16 < 16 := by have := s.isLt; omega
  generalize s.toNat / 16 = q at *
  interval_cases q <;> rfl

/-- **C38** is false for system messages: `dispatch` masks the status with `F0`, so none of song position, song
select, tune request, timing tick, start, continue, stop, active sensing and reset is ever delivered, although
each has a handler. -/
theorem C38_system_violation :
    (∀ s b1 b2 b3 : BitVec 8, 0xf0 ≤ s.toNat → dispatch (pack s b1 b2 b3) = none) ∧
    (∀ m ∈ [songPosition 0x123#16, songSelect 1#8, tuneRequest, timingTick, start, continue_, stop, activeSensing,
      Midi.reset], specMsg (m.byte 0) (m.byte 1) (m.byte 2) = some m) := by
  constructor
  · intro s b1 b2 b3 hs
    rw [dispatch_pack]
    have : s.toNat / 16 = 15 := by have := s.isLt; omega
    rw [this]; rfl
  · decide +kernel

/-- Every raw message is of the form `pack s b1 b2 b3`: the theorems above cover all of them. -/
theorem C38_all_raw_messages (raw : BitVec 32) : ∃ s b1 b2 b3, raw = pack s b1 b2 b3 := by
  refine ⟨raw.extractLsb' 0 8, raw.extractLsb' 8 8, raw.extractLsb' 16 8, raw.extractLsb' 24 8, ?_⟩
  apply BitVec.eq_of_getLsbD_eq
  intro i hi
  simp only [pack, BitVec.getLsbD_append, BitVec.getLsbD_extractLsb']
  interval_cases i <;> simp

/-- **C67** Processing the results of successive reads: as long as the device reports no error, the handler calls
are exactly the dispatched events, one per event, in order, with their time stamps; nothing is dispatched when
nothing was read or the stream is invalid. -/
theorem C67_processing_partial (rs : List PmRead) (h : ∀ r ∈ rs, ∀ c, r ≠ .error c) :
    rs.mapM (process true) = .ok (rs.map fun r => match r with
      | .event m t => (dispatch m).map fun x => (x, t.signExtend 64)
      | _ => none) ∧
    rs.mapM (processRaw true) = .ok (rs.map fun r => match r with
      | .event m t => some (m, t.signExtend 64)
      | _ => none) ∧
    rs.mapM (process false) = .ok (rs.map fun _ => none) := by
  induction rs with
  | nil => exact ⟨rfl, rfl, rfl⟩
  | cons r rs ih =>
    obtain ⟨i1, i2, i3⟩ := ih fun r hr => h r (List.mem_cons_of_mem _ hr)
    have hr := h r List.mem_cons_self
    simp only [List.mapM_cons, List.map_cons, i1, i2, i3]
    cases r with
    | nothing => exact ⟨rfl, rfl, rfl⟩
    | event m t => exact ⟨rfl, rfl, rfl⟩
    | error c => exact absurd rfl (hr c)

example : [PmRead.event (pack 0x90#8 60#8 1#8 0#8) 7#32, .nothing].mapM (process true)
    = .ok [some (noteOn 0#8 60#8 1#8, 7#64), none] := by decide +kernel

/-- **C67** is false when the device reports an error: the negative code counts as success and an uninitialised
event is dispatched. -/
theorem C67_error_violation (c : Int) : process true (.error c) = .error .uninit ∧
    processRaw true (.error c) = .error .uninit := ⟨rfl, rfl⟩

end Verif
