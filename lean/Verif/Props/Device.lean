import Verif.Model.Device
import Mathlib.Tactic.Linarith
import Mathlib.Data.List.Nodup
/-!
# C64: device lists
-/
namespace Verif
open Device

/-- The device of the host list with a given index, if it has a channel: the specification of a listed device. -/
def Listed (host : List HostInfo) (d : Impl) : Prop :=
  ∃ h, host[d.id]? = some h ∧ (h.inputs ≠ 0 ∨ h.outputs ≠ 0) ∧ d.inputs = h.inputs ∧ d.outputs = h.outputs ∧ d.info = h.info

theorem enumerate_mem : ∀ (host : List HostInfo) (i : Nat) (d : Impl), d ∈ enumerate i host ↔
    ∃ j h, d.id = i + j ∧ host[j]? = some h ∧ (h.inputs ≠ 0 ∨ h.outputs ≠ 0) ∧ d.inputs = h.inputs ∧ d.outputs = h.outputs ∧ d.info = h.info
  | [], i, d => by simp [enumerate]
  | h :: t, i, d => by
    have ih := enumerate_mem t (i + 1) d
    rw [enumerate]
    constructor
    · intro hd
      split_ifs at hd with hc
      · rcases List.mem_cons.mp hd with rfl | hd
        · exact ⟨0, h, by simp, by simp, hc, rfl, rfl, rfl⟩
        · obtain ⟨j, h', e, g, rest⟩ := ih.mp hd
          exact ⟨j + 1, h', by omega, by simpa using g, rest⟩
      · obtain ⟨j, h', e, g, rest⟩ := ih.mp hd
        exact ⟨j + 1, h', by omega, by simpa using g, rest⟩
    · rintro ⟨j, h', e, g, c, e1, e2, e3⟩
      cases j with
      | zero =>
        simp at g
        subst g
        rw [if_pos c]
        apply List.mem_cons.mpr
        left
        cases d
        simp_all
      | succ j =>
        have := ih.mpr ⟨j, h', by omega, by simpa using g, c, e1, e2, e3⟩
        split_ifs
        · exact List.mem_cons_of_mem _ this
        · exact this

theorem enumerate_sorted : ∀ (host : List HostInfo) (i : Nat), (enumerate i host).Pairwise (fun a b => a.id < b.id)
  | [], i => by simp [enumerate]
  | h :: t, i => by
    have ih := enumerate_sorted t (i + 1)
    rw [enumerate]
    split_ifs
    · refine List.Pairwise.cons ?_ ih
      intro d hd
      obtain ⟨j, _, e, _⟩ := (enumerate_mem t (i + 1) d).mp hd
      show i < d.id
      omega
    · exact ih

/-- **C64.** The first listing of audio devices contains exactly the host's devices that have an input or output channel, each with
its host index as id, in increasing order of id. -/
theorem C64_audio_list (host : List HostInfo) :
    (∀ d, d ∈ audioList [] host ↔ Listed host d) ∧ (audioList [] host).Pairwise (fun a b => a.id < b.id) := by
  have e : audioList [] host = enumerate 0 host := by
    unfold audioList getDevices
    split_ifs with h
    · rfl
    · have : host.length = 0 := by
        by_contra h0
        exact h ⟨h0, fun e => h0 (by rw [← e]; rfl)⟩
      rw [List.length_eq_zero_iff.mp this]; rfl
  rw [e]
  refine ⟨fun d => ?_, enumerate_sorted host 0⟩
  rw [enumerate_mem]
  constructor
  · rintro ⟨j, h, e1, g, rest⟩
    refine ⟨h, ?_, rest⟩
    rw [e1, Nat.zero_add]; exact g
  · rintro ⟨h, g, rest⟩
    exact ⟨d.id, h, by simp, g, rest⟩

/-- **C64.** Listing again while the host's devices do not change returns the same list, whatever was listed before. -/
theorem C64_audio_list_stable (cache : List Impl) (host : List HostInfo) :
    audioList (audioList cache host) host = audioList cache host := by
  unfold audioList getDevices
  split_ifs <;> rfl

theorem enumerate_get : ∀ (host : List HostInfo) (i j : Nat), (∀ k, k ≤ j → ∀ h, host[k]? = some h → h.inputs ≠ 0 ∨ h.outputs ≠ 0) →
    (enumerate i host)[j]? = (host[j]?).map fun h => ⟨i + j, h.inputs, h.outputs, h.info⟩
  | [], i, j, _ => by simp [enumerate]
  | h :: t, i, j, hc => by
    have h0 := hc 0 (Nat.zero_le _) h (by simp)
    rw [enumerate, if_pos h0]
    cases j with
    | zero => simp
    | succ j =>
      have ih := enumerate_get t (i + 1) j (fun k hk h' g => hc (k + 1) (by omega) h' (by simpa using g))
      simp only [List.getElem?_cons_succ, ih]
      congr 1
      funext h'
      congr 1
      omega

theorem enumerate_shift : ∀ (host : List HostInfo) (i j : Nat) (d : Impl), (enumerate i host)[j]? = some d → i + j ≤ d.id
  | [], i, j, d, h => by simp [enumerate] at h
  | h :: t, i, j, d, hd => by
    rw [enumerate] at hd
    split_ifs at hd
    · cases j with
      | zero => simp at hd; rw [← hd]
                exact le_rfl
      | succ j =>
        have := enumerate_shift t (i + 1) j d (by simpa using hd)
        omega
    · have := enumerate_shift t (i + 1) j d hd
      omega

theorem enumerate_shift_strict : ∀ (host : List HostInfo) (i j : Nat) (d : Impl),
    (∃ k h, k ≤ j ∧ host[k]? = some h ∧ h.inputs = 0 ∧ h.outputs = 0) → (enumerate i host)[j]? = some d → i + j < d.id
  | [], i, j, d, _, h => by simp [enumerate] at h
  | h :: t, i, j, d, ⟨k, h', hk, g, g1, g2⟩, hd => by
    rw [enumerate] at hd
    split_ifs at hd with hc
    · cases k with
      | zero =>
        simp at g
        subst g
        exact absurd hc (by simp [g1, g2])
      | succ k =>
        cases j with
        | zero => omega
        | succ j =>
          have := enumerate_shift_strict t (i + 1) j d ⟨k, h', by omega, by simpa using g, g1, g2⟩ (by simpa using hd)
          omega
    · have := enumerate_shift t (i + 1) j d hd
      omega

/-- **C64.** `get(id)` returns the device with that id when every host device up to it has a channel. -/
theorem C64_get_partial (host : List HostInfo) (id : Nat) (h : HostInfo) (hid : host[id]? = some h)
    (hc : ∀ k, k ≤ id → ∀ h, host[k]? = some h → h.inputs ≠ 0 ∨ h.outputs ≠ 0) :
    ∃ d, audioGet [] host id = .ok d ∧ d.id = id ∧ Listed host d := by
  have hlen : id < host.length := (List.getElem?_eq_some_iff.mp hid).1
  have e : getDevices [] host = enumerate 0 host := by
    unfold getDevices
    rw [if_pos]
    exact ⟨by omega, fun e => by rw [← e] at hlen; exact absurd hlen (Nat.not_lt_zero _)⟩
  refine ⟨⟨id, h.inputs, h.outputs, h.info⟩, ?_, rfl, h, hid, hc id le_rfl h hid, rfl, rfl, rfl⟩
  unfold audioGet readAt
  rw [e, enumerate_get host 0 id hc, hid]
  simp

/-- **C64.** ... and in no other case: if some device up to `id` has no channel, `get(id)` never returns the device with that id — it
returns a device with a larger id, or indexes past the end of the vector. -/
theorem C64_get_wrong (host : List HostInfo) (id k : Nat) (h : HostInfo) (hk : k ≤ id) (g : host[k]? = some h)
    (h1 : h.inputs = 0) (h2 : h.outputs = 0) :
    (∃ d, audioGet [] host id = .ok d ∧ id < d.id) ∨ audioGet [] host id = .error .oobRead := by
  have e : getDevices [] host = enumerate 0 host := by
    unfold getDevices
    rw [if_pos]
    have hlen : k < host.length := (List.getElem?_eq_some_iff.mp g).1
    exact ⟨by omega, fun e => by rw [← e] at hlen; exact absurd hlen (Nat.not_lt_zero _)⟩
  unfold audioGet readAt
  rw [e]
  cases hd : (enumerate 0 host)[id]? with
  | none => right; rfl
  | some d =>
    left
    refine ⟨d, rfl, ?_⟩
    have := enumerate_shift_strict host 0 id d ⟨k, h, hk, g, h1, h2⟩ hd
    omega

/-- **C64.** Such a host exists: with a channel-less device 0, `get(1)` is the device with id 2, and `get(2)` is out of range. -/
theorem C64_get_counterexample :
    let host : List HostInfo := [⟨0, 0, "null"⟩, ⟨2, 0, "mic"⟩, ⟨0, 2, "out"⟩]
    audioGet [] host 1 = .ok ⟨2, 0, 2, "out"⟩ ∧ audioGet [] host 2 = .error .oobRead := by
  decide

/-- **C64.** The audio list is refreshed only when the *number* of devices differs from the number listed: after a change of
the host's devices that keeps this number, the old list is returned. -/
theorem C64_audio_stale (cache : List Impl) (host : List HostInfo) (h : cache.length = host.length) :
    audioList cache host = cache := by
  unfold audioList getDevices
  rw [if_neg]
  simp [h]

/-- **C64.** ... hence a device that was replaced is still listed. -/
theorem C64_audio_stale_counterexample :
    let before : List HostInfo := [⟨2, 0, "mic"⟩]
    let now : List HostInfo := [⟨0, 2, "headphones"⟩]
    audioList (audioList [] before) now = [⟨0, 2, 0, "mic"⟩] := by
  decide

/-- `n` successive calls of `midi_device::list()`: what the last one returns. -/
def midiLists (host : List HostInfo) : Nat → List Impl
  | 0 => []
  | n + 1 => midiList (midiLists host n) host

/-- **C64.** The first listing of MIDI devices contains exactly the host's devices with an input or output. -/
theorem C64_midi_list (host : List HostInfo) :
    (∀ d, d ∈ midiLists host 1 ↔ Listed host d) ∧ (midiLists host 1).Pairwise (fun a b => a.id < b.id) := by
  have e : midiLists host 1 = enumerate 0 host := rfl
  rw [e]
  refine ⟨fun d => ?_, enumerate_sorted host 0⟩
  rw [enumerate_mem]
  constructor
  · rintro ⟨j, h, e1, g, rest⟩
    refine ⟨h, ?_, rest⟩
    rw [e1, Nat.zero_add]; exact g
  · rintro ⟨h, g, rest⟩
    exact ⟨d.id, h, by simp, g, rest⟩

/-- **C64.** The `n`-th listing of MIDI devices contains every device `n` times. -/
theorem C64_midi_duplicates (host : List HostInfo) (n : Nat) (d : Impl) (hd : Listed host d) :
    (midiLists host n).count d = n := by
  have h1 : (enumerate 0 host).count d = 1 := by
    apply List.count_eq_one_of_mem
    · exact (enumerate_sorted host 0).imp (fun h e => by rw [e] at h; exact lt_irrefl _ h)
    · exact ((C64_midi_list host).1 d).mpr hd
  induction n with
  | zero => rfl
  | succ n ih => rw [midiLists, midiList, List.count_append, ih, h1]

/-- The specification is not vacuous. -/
example : Listed [⟨0, 0, "null"⟩, ⟨2, 0, "mic"⟩] ⟨1, 2, 0, "mic"⟩ := ⟨⟨2, 0, "mic"⟩, rfl, Or.inl (by decide), rfl, rfl, rfl⟩

end Verif
