import Verif.Model.Synth
import Verif.Props.Midi
import Verif.Props.NoteFrequency
import Verif.Props.Phase
import Verif.Props.Envelope
import Verif.Props.Waveshaper
import Verif.Props.FastExpAcc
import Verif.Model.Units
import Verif.Props.ToneLock
/-!
# C100: the synthesizer of example/square_synth.cpp
-/
namespace Verif
open Rounding Example Env

namespace Example

/-- The type of a raw message: the high half of its first byte (9: note on, 8: note off). -/
def status (raw : BitVec 32) : Nat := (raw.extractLsb' 0 8).toNat / 16
/-- The second byte of a raw message: the key. -/
def keyOf (raw : BitVec 32) : BitVec 8 := raw.extractLsb' 8 8
/-- The third byte of a raw message: the velocity. -/
def velOf (raw : BitVec 32) : BitVec 8 := raw.extractLsb' 16 8

/-- MIDI requires data bytes below 128; only the velocity of a note-on matters here. -/
def ValidEvent : SynthEvent → Prop
  | .frame => True
  | .midi raw => status raw = 9 → (velOf raw).toNat < 128

/-- The event is a note-on. -/
def SynthEvent.isOn : SynthEvent → Bool
  | .frame => false
  | .midi raw => status raw == 9
/-- The event is a note-off. -/
def SynthEvent.isOff : SynthEvent → Bool
  | .frame => false
  | .midi raw => status raw == 8
/-- The event is a note-on with a velocity other than 0. -/
def SynthEvent.sounds : SynthEvent → Bool
  | .frame => false
  | .midi raw => status raw == 9 && (velOf raw).toNat != 0

/-- The key of the last note-on, if there has been one. -/
def lastKey : List SynthEvent → Option (BitVec 8) → Option (BitVec 8)
  | [], k => k
  | .frame :: evs, k => lastKey evs k
  | .midi raw :: evs, k => lastKey evs (if status raw = 9 then some (keyOf raw) else k)

theorem dispatch_raw (raw : BitVec 32) : Midi.dispatch raw = Midi.dispatch (Midi.pack (raw.extractLsb' 0 8) (keyOf raw) (velOf raw) (raw.extractLsb' 24 8)) := by
  congr 1
  apply BitVec.eq_of_getLsbD_eq
  intro i hi
  simp only [Midi.pack, keyOf, velOf, BitVec.getLsbD_append, BitVec.getLsbD_extractLsb']
  interval_cases i <;> simp

theorem midi_eq (fl fd : ℚ → ℚ) (sps : Nat) (s : Synth) (raw : BitVec 32) :
    s.midi fl fd sps raw = if status raw = 9 then s.noteOn fl fd sps (keyOf raw) (velOf raw)
      else if status raw = 8 then s.noteOff (keyOf raw) else .ok s := by
  unfold Synth.midi
  rw [dispatch_raw, Midi.dispatch_pack, status]
  have hlt : (raw.extractLsb' 0 8).toNat / 16 < 16 := by have := (raw.extractLsb' 0 8).isLt; omega
  generalize (raw.extractLsb' 0 8).toNat / 16 = n at *
  interval_cases n <;> simp [Midi.Msg.data1, Midi.Msg.data2, Midi.Msg.byte]

/-- Every note frequency is below 7920 Hz. -/
theorem noteFrequency_le {fd : ℚ → ℚ} (D : Lawful 53 (-1074) fd) (k : BitVec 8) : ∃ f, Midi.noteFrequency fd k = .ok f ∧ 0 ≤ f ∧ f ≤ 7920 := by
  by_cases hk : k.toNat < 9 ∨ 119 < k.toNat
  · exact ⟨0, by rw [Midi.noteFrequency, if_pos hk], le_rfl, by norm_num⟩
  · refine ⟨_, Midi.noteFrequency_split fd k (by omega) (by omega), ?_⟩
    obtain ⟨_, h2, h3⟩ := Midi.octave_bounds D _ (Midi.base_ge ((k.toNat - 9) / 12)) ((k.toNat - 9) % 12)
    refine ⟨by linarith, h2.trans ?_⟩
    have hr1 : Midi.rootLit * (1 + 1 / 2 ^ 53) ^ 2 ≤ 106 / 100 := by unfold Midi.rootLit; norm_num
    have hr0 : 0 ≤ Midi.rootLit * (1 + 1 / 2 ^ 53) ^ 2 := by unfold Midi.rootLit; norm_num
    generalize Midi.rootLit * (1 + 1 / 2 ^ 53) ^ 2 = r at *
    have hp : ∀ i, r ^ i ≤ (106 / 100 : ℚ) ^ i := fun i => pow_le_pow_left₀ hr0 hr1 i
    have hb : ∀ o : Nat, (0 : ℚ) ≤ 55 / 4 * 2 ^ o := fun o => by positivity
    by_cases ho : (k.toNat - 9) / 12 ≤ 8
    · have hi : (k.toNat - 9) % 12 ≤ 11 := by omega
      have h1 : (55 / 4 * 2 ^ ((k.toNat - 9) / 12) : ℚ) ≤ 55 / 4 * 2 ^ 8 := by
        apply mul_le_mul_of_nonneg_left _ (by norm_num)
        exact pow_le_pow_right₀ (by norm_num) ho
      have h2 : (106 / 100 : ℚ) ^ ((k.toNat - 9) % 12) ≤ (106 / 100) ^ 11 := pow_le_pow_right₀ (by norm_num) hi
      calc _ ≤ (55 / 4 * 2 ^ 8 : ℚ) * (106 / 100) ^ 11 := mul_le_mul h1 ((hp _).trans h2) (pow_nonneg hr0 _) (by norm_num)
        _ ≤ _ := by norm_num
    · have ho' : (k.toNat - 9) / 12 = 9 := by omega
      have hi : (k.toNat - 9) % 12 ≤ 2 := by omega
      have h2 : (106 / 100 : ℚ) ^ ((k.toNat - 9) % 12) ≤ (106 / 100) ^ 2 := pow_le_pow_right₀ (by norm_num) hi
      rw [ho']
      calc _ ≤ (55 / 4 * 2 ^ 9 : ℚ) * (106 / 100) ^ 2 := mul_le_mul le_rfl ((hp _).trans h2) (pow_nonneg hr0 _) (by norm_num)
        _ ≤ _ := by norm_num

theorem ofFreq_ok {fd : ℚ → ℚ} (D : Lawful 53 (-1074) fd) {f : ℚ} (h0 : 0 ≤ f) (h1 : f ≤ 7920) {sps : Nat} (hs : 8000 ≤ sps) :
    ∃ r, Phase.ofFreq fd f sps = .ok r := by
  have hs' : (8000 : ℚ) ≤ sps := by exact_mod_cast hs
  have hp : (0 : ℚ) < sps := by linarith
  have hx : 2 ^ 32 * f / sps ≤ 2 ^ 32 - 1 := by
    rw [div_le_iff₀ hp]
    nlinarith
  have hy := D.le_of_rep (r := 2 ^ 32 - 1) ⟨2 ^ 32 - 1, 0, by norm_num, by norm_num, by norm_num⟩ hx
  have hz := D.ge_of_rep (r := 0) ⟨0, 0, by norm_num, by norm_num, by norm_num⟩ (show 0 ≤ 2 ^ 32 * f / sps by positivity)
  obtain ⟨r, hr, _⟩ := toU32_ok hz (lt_of_le_of_lt hy (by norm_num))
  exact ⟨r, by rw [Phase.ofFreq, if_neg (by omega), hr]⟩

/-- What holds after every sequence of events. -/
structure SynthInv (sps : Nat) (s : Synth) : Prop where
  inv : Env.Inv (127 / 128) s.env
  init : Env.Init s.env
  off : s.env.noteOffLevel = 0
  endOff : s.env.endNoteOffLevel = 0
  z : s.env.state = .noteOff → s.env.y = 0
  incr : ∀ k, s.key = some k → ∃ f, Midi.noteFrequency fl64 k = .ok f ∧ Phase.ofFreq fl64 f sps = .ok s.phase.incr

theorem tick_ok {e : Env.Envelope} (h : Env.Init e) : ∃ r, Env.tick fl32 fl64 e = .ok r ∧ Env.Init r.1 := by
  obtain ⟨e', h1, h2⟩ := Env.step_init fl32 fl64 h (op := .tick) (by simp)
  unfold Env.step at h1
  cases ht : Env.tick fl32 fl64 e with
  | error b => rw [ht] at h1; cases h1
  | ok r => rw [ht] at h1; cases h1; exact ⟨r, rfl, h2⟩

theorem tick_offLevel {e : Env.Envelope} {r : Env.Envelope × ℚ} (h : Env.tick fl32 fl64 e = .ok r) :
    r.1.noteOffLevel = e.noteOffLevel ∧ r.1.endNoteOffLevel = e.endNoteOffLevel := by
  unfold Env.tick at h
  cases hs : e.state <;> rw [hs] at h <;> simp only at h
  · cases h; exact ⟨rfl, rfl⟩
  · unfold Env.updateAttack at h
    cases hl : Env.get e.level with
    | error b => rw [hl] at h; cases h
    | ok l => rw [hl] at h; simp only [bind, Except.bind, pure, Except.pure] at h; split_ifs at h <;> (cases h; exact ⟨rfl, rfl⟩)
  · unfold Env.updateLegato at h
    cases hl : Env.get e.legatoLevel with
    | error b => rw [hl] at h; cases h
    | ok l => rw [hl] at h; simp only [bind, Except.bind, pure, Except.pure] at h; split_ifs at h <;> (cases h; exact ⟨rfl, rfl⟩)
  · unfold Env.updateDecay at h
    cases hl : Env.get e.level with
    | error b => rw [hl] at h; cases h
    | ok l => rw [hl] at h; simp only [bind, Except.bind, pure, Except.pure] at h; split_ifs at h <;> (cases h; exact ⟨rfl, rfl⟩)
  · cases h; exact ⟨rfl, rfl⟩
  · cases h; unfold Env.updateRelease; simp only; split_ifs <;> exact ⟨rfl, rfl⟩
  · cases h; unfold Env.updateRelease; simp only; split_ifs <;> exact ⟨rfl, rfl⟩

theorem tick_off_zero {e : Env.Envelope} {r : Env.Envelope × ℚ} (h : Env.tick fl32 fl64 e = .ok r) (h0 : e.noteOffLevel = 0) (hz : e.state = .noteOff → e.y = 0) :
    r.1.state = .noteOff → r.1.y = 0 := by
  unfold Env.tick at h
  cases hs : e.state <;> rw [hs] at h <;> simp only at h
  · cases h; exact fun _ => hz hs
  · unfold Env.updateAttack at h
    cases hl : Env.get e.level with
    | error b => rw [hl] at h; cases h
    | ok l =>
      rw [hl] at h; simp only [bind, Except.bind, pure, Except.pure] at h
      split_ifs at h <;> (cases h; intro hc; simp [hs] at hc)
  · unfold Env.updateLegato at h
    cases hl : Env.get e.legatoLevel with
    | error b => rw [hl] at h; cases h
    | ok l => rw [hl] at h; simp only [bind, Except.bind, pure, Except.pure] at h; split_ifs at h <;> (cases h; intro hc; simp [hs] at hc)
  · unfold Env.updateDecay at h
    cases hl : Env.get e.level with
    | error b => rw [hl] at h; cases h
    | ok l => rw [hl] at h; simp only [bind, Except.bind, pure, Except.pure] at h; split_ifs at h <;> (cases h; intro hc; simp [hs] at hc)
  · cases h; intro hc; simp [Env.updateSustain, hs] at hc
  · cases h; unfold Env.updateRelease; simp only; split_ifs <;> intro hc <;> first | exact h0 | simp [hs] at hc
  · cases h; unfold Env.updateRelease; simp only; split_ifs <;> intro hc <;> first | exact h0 | simp [hs] at hc

theorem softClip_zero : Fx.softClip fl32 fl64 0 = 0 := by
  have := (C51_soft_clip 0 ⟨0, 0, by norm_num, by norm_num, by norm_num⟩).2.2.2.1
  rw [neg_zero] at this
  linarith

/-- A frame: it succeeds, the channels are equal, the samples are in `[-1, 1]`, and 0 if the envelope is. -/
theorem frame_ok {sps : Nat} {s : Synth} (h : SynthInv sps s) :
    ∃ e v s' o, Env.tick fl32 fl64 s.env = .ok (e, v) ∧ s.frame fl32 fl64 = .ok (s', (o, o)) ∧ SynthInv sps s' ∧ s'.env = e ∧ s'.key = s.key ∧ -1 ≤ o ∧ o ≤ 1 ∧
      (v = 0 → o = 0) := by
  obtain ⟨⟨e, v⟩, h1, h2⟩ := tick_ok h.init
  obtain ⟨f1, f2⟩ := tick_offLevel h1
  let r := RoundFilter.reso fl32 (resoCutoff fl32 s.filter v) (Osc.square fl32 s.phase.phase s.phase.incr)
  refine ⟨e, v, { s with phase := s.phase.postInc.2, env := e, filter := r.1 }, Fx.softClip fl32 fl64 (fl32 (r.2 * v)), h1, by rw [Synth.frame, h1]; rfl, ⟨(Env.tick_inv fl32_lawful _ h.inv h1).1, h2, f1.trans h.off, f2.trans h.endOff, tick_off_zero h1 h.off h.z, ?_⟩, rfl, rfl, ?_, ?_, ?_⟩
  · exact h.incr
  · exact (C51_soft_clip _ (fl32_lawful.rep _)).1
  · exact (C51_soft_clip _ (fl32_lawful.rep _)).2.1
  · intro hv
    simp only [hv, mul_zero, fl32_lawful.zero, softClip_zero]

theorem noteOn_ok {sps : Nat} (hsps : 8000 ≤ sps) {s : Synth} (h : SynthInv sps s) (k v : BitVec 8) (hv : v.toNat < 128) :
    ∃ i, s.noteOn fl32 fl64 sps k v = .ok { s with key := some k, phase := { s.phase with incr := i }, env := Env.trigger s.env (v.toNat / 128) 1 } ∧
      SynthInv sps { s with key := some k, phase := { s.phase with incr := i }, env := Env.trigger s.env (v.toNat / 128) 1 } := by
  obtain ⟨f, f1, f2, f3⟩ := noteFrequency_le fl64_lawful k
  obtain ⟨i, hi⟩ := ofFreq_ok fl64_lawful f2 f3 hsps
  have hrep : Rep 24 (-149) ((v.toNat : ℚ) / 128) := ⟨v.toNat, -7, by
    rw [abs_of_nonneg (by positivity)]; have : (v.toNat : ℤ) < 128 := by exact_mod_cast hv
    linarith, by norm_num, by norm_num; ring⟩
  have hfix := fl32_lawful.fix _ hrep
  refine ⟨i, ?_, ?_⟩
  · rw [Synth.noteOn, f1, PD.ok_bind, Phase.Iter.set, hi]
    show _ = Except.ok _
    simp only [hfix]; rfl
  · have hop : ValidOp (127 / 128) (.trigger ((v.toNat : ℚ) / 128) 1) := ⟨hrep, by
      rw [div_le_div_iff_of_pos_right (by norm_num)]; exact_mod_cast (by omega : v.toNat ≤ 127)⟩
    obtain ⟨e', e1, e2⟩ := Env.step_init fl32 fl64 h.init (op := .trigger ((v.toNat : ℚ) / 128) 1) (by intro l hc; cases hc)
    cases e1
    refine ⟨Env.step_inv (fd := fl64) fl32_lawful fl64_lawful _ h.inv hop rfl, e2, ?_, ?_, ?_, ?_⟩
    · show (Env.trigger s.env _ 1).noteOffLevel = 0
      unfold Env.trigger; split_ifs <;> exact h.off
    · show (Env.trigger s.env _ 1).endNoteOffLevel = 0
      unfold Env.trigger; split_ifs <;> exact h.endOff
    · show (Env.trigger s.env _ 1).state = .noteOff → (Env.trigger s.env _ 1).y = 0
      unfold Env.trigger; split_ifs
      · intro hc; cases hc
      · exact h.z
    · intro k' hk'; cases hk'; exact ⟨f, f1, hi⟩

theorem release_inv {sps : Nat} {s : Synth} (h : SynthInv sps s) : SynthInv sps { s with env := Env.release s.env } := by
  obtain ⟨e', e1, e2⟩ := Env.step_init fl32 fl64 h.init (op := .release) (by intro l hc; cases hc)
  cases e1
  refine ⟨Env.step_inv (fd := fl64) fl32_lawful fl64_lawful _ h.inv (op := .release) trivial rfl, e2, ?_, ?_, ?_, h.incr⟩
  · show (Env.release s.env).noteOffLevel = 0
    unfold Env.release; split_ifs <;> exact h.off
  · show (Env.release s.env).endNoteOffLevel = 0
    unfold Env.release; split_ifs <;> exact h.endOff
  · show (Env.release s.env).state = .noteOff → (Env.release s.env).y = 0
    unfold Env.release; split_ifs
    · intro hc; cases hc
    · exact h.z

theorem synth_mk_inv {c : Env.Config} {sps : Nat} (hc : ValidConfig c sps) : SynthInv sps (Synth.mk' fl32 fl64 c sps) :=
  ⟨Env.mk_inv fl32_lawful fl64_lawful (by norm_num) hc, by simp [Synth.mk', Env.Init, Env.mk'], rfl, rfl, fun _ => rfl, fun k hk => by cases hk⟩

/-- The number of frames among the events. -/
def frames (evs : List SynthEvent) : Nat := evs.countP fun e => match e with | .frame => true | .midi _ => false

theorem noteOff_eq (s : Synth) (key k : BitVec 8) (hk : s.key = some k) : s.noteOff key = .ok (if key = k then { s with env := Env.release s.env } else s) := by
  cases s
  cases hk
  rfl

/-- One event, when it is legal in the state: it succeeds. -/
theorem step_ok {sps : Nat} (hsps : 8000 ≤ sps) {s : Synth} (h : SynthInv sps s) (ev : SynthEvent) (hv : ValidEvent ev) (hoff : ev.isOff = true → s.key ≠ none) :
    ∃ s' o, s.step fl32 fl64 sps ev = .ok (s', o) ∧ SynthInv sps s' ∧ s'.key = lastKey [ev] s.key ∧ (∀ p ∈ o, p.1 = p.2 ∧ -1 ≤ p.1 ∧ p.1 ≤ 1) ∧
      o.length = frames [ev] := by
  cases ev with
  | frame =>
    obtain ⟨e, v, s', o, h1, h2, h3, h4, h5, h6, h7, h8⟩ := frame_ok h
    exact ⟨s', [(o, o)], by rw [Synth.step, h2]; rfl, h3, h5, by simp [h6, h7], rfl⟩
  | midi raw =>
    have hm := midi_eq fl32 fl64 sps s raw
    by_cases h9 : status raw = 9
    · obtain ⟨i, h1, h2⟩ := noteOn_ok hsps h (keyOf raw) (velOf raw) (hv h9)
      rw [if_pos h9, h1] at hm
      exact ⟨_, [], by rw [Synth.step, hm]; rfl, h2, by simp [lastKey, h9], by simp, rfl⟩
    · by_cases h8 : status raw = 8
      · cases hk : s.key with
        | none => exact absurd hk (hoff (by simp [SynthEvent.isOff, h8]))
        | some k =>
          rw [if_neg h9, if_pos h8, noteOff_eq s _ k hk] at hm
          refine ⟨_, [], by rw [Synth.step, hm]; rfl, ?_, ?_, by simp, rfl⟩
          · split_ifs
            · exact release_inv h
            · exact h
          · simp only [lastKey, h9, if_false]
            split_ifs <;> exact hk
      · rw [if_neg h9, if_neg h8] at hm
        exact ⟨s, [], by rw [Synth.step, hm]; rfl, h, by simp [lastKey, h9], by simp, rfl⟩

theorem lastKey_append (a b : List SynthEvent) (k : Option (BitVec 8)) : lastKey (a ++ b) k = lastKey b (lastKey a k) := by
  induction a generalizing k with
  | nil => rfl
  | cons e a ih => cases e <;> simp [lastKey, ih]

/-- No note-off comes before the first note-on. -/
def Ordered (evs : List SynthEvent) (k : Option (BitVec 8)) : Prop :=
  ∀ a ev b, evs = a ++ ev :: b → ev.isOff = true → lastKey a k ≠ none

theorem Ordered.tail {ev : SynthEvent} {evs : List SynthEvent} {k : Option (BitVec 8)} (h : Ordered (ev :: evs) k) : Ordered evs (lastKey [ev] k) := by
  intro a x b he hx
  have := h (ev :: a) x b (by rw [he]; rfl) hx
  rwa [show ev :: a = [ev] ++ a from rfl, lastKey_append] at this

theorem run_ok {sps : Nat} (hsps : 8000 ≤ sps) (evs : List SynthEvent) {s : Synth} (h : SynthInv sps s) (hv : ∀ ev ∈ evs, ValidEvent ev) (ho : Ordered evs s.key) :
    ∃ s' o, s.run fl32 fl64 sps evs = .ok (s', o) ∧ SynthInv sps s' ∧ s'.key = lastKey evs s.key ∧ (∀ p ∈ o, p.1 = p.2 ∧ -1 ≤ p.1 ∧ p.1 ≤ 1) ∧
      o.length = frames evs := by
  induction evs generalizing s with
  | nil => exact ⟨s, [], rfl, h, rfl, by simp, rfl⟩
  | cons ev evs ih =>
    obtain ⟨s1, o1, a1, a2, a3, a4, a5⟩ := step_ok hsps h ev (hv ev (by simp)) (fun he => ho [] ev evs rfl he)
    obtain ⟨s2, o2, b1, b2, b3, b4, b5⟩ := ih a2 (fun e he => hv e (by simp [he])) (by rw [a3]; exact ho.tail)
    refine ⟨s2, o1 ++ o2, ?_, b2, ?_, ?_, ?_⟩
    · rw [Synth.run, a1, PD.ok_bind]; simp only; rw [b1]; rfl
    · rw [b3, a3, ← lastKey_append]; rfl
    · intro p hp
      rcases List.mem_append.1 hp with hp | hp
      · exact a4 p hp
      · exact b4 p hp
    · rw [List.length_append, a5, b5, frames, frames, frames, ← List.countP_append]
      rfl

/-- The notes are off and stay off while no note sounds. -/
theorem silent_run {sps : Nat} (hsps : 8000 ≤ sps) (evs : List SynthEvent) {s : Synth} (h : SynthInv sps s) (hs : s.env.state = .noteOff) (hy : s.env.y = 0)
    (hns : ∀ ev ∈ evs, ev.sounds = false) {s' : Synth} {o : List (ℚ × ℚ)} (hr : s.run fl32 fl64 sps evs = .ok (s', o)) : ∀ p ∈ o, p = (0, 0) := by
  induction evs generalizing s o with
  | nil => cases hr; simp
  | cons ev evs ih =>
    rw [Synth.run] at hr
    have hrest : ∀ ev ∈ evs, ev.sounds = false := fun e he => hns e (by simp [he])
    cases ev with
    | frame =>
      obtain ⟨e, v, s1, o1, h1, h2, h3, h4, h5, h6, h7, h8⟩ := frame_ok h
      rw [C43_off_is_silent fl32 fl64 _ hs] at h1
      cases h1
      rw [Synth.step, h2] at hr
      simp only [bind, Except.bind, pure, Except.pure] at hr
      cases hq : s1.run fl32 fl64 sps evs with
      | error b => rw [hq] at hr; cases hr
      | ok q =>
        rw [hq] at hr; cases hr
        intro p hp
        rcases List.mem_append.1 hp with hp | hp
        · rw [List.mem_singleton.1 hp, h8 rfl]
        · exact ih h3 (by rw [h4]; exact hs) (by rw [h4]; exact hy) hrest hq p hp
    | midi raw =>
      have hm := midi_eq fl32 fl64 sps s raw
      have hx := hns (.midi raw) (by simp)
      have key : ∀ s1, s.midi fl32 fl64 sps raw = .ok s1 → SynthInv sps s1 → s1.env.state = .noteOff → s1.env.y = 0 → ∀ p ∈ o, p = (0, 0) := by
        intro s1 e1 i1 i2 i3
        rw [Synth.step, e1] at hr
        simp only [bind, Except.bind, pure, Except.pure] at hr
        cases hq : s1.run fl32 fl64 sps evs with
        | error b => rw [hq] at hr; cases hr
        | ok q => rw [hq] at hr; cases hr; exact ih i1 i2 i3 hrest hq
      by_cases h9 : status raw = 9
      · have hv0 : (velOf raw).toNat = 0 := by simpa [SynthEvent.sounds, h9] using hx
        obtain ⟨i, h1, h2⟩ := noteOn_ok hsps h (keyOf raw) (velOf raw) (by omega)
        have ht : Env.trigger s.env ((velOf raw).toNat / 128) 1 = s.env := by
          unfold Env.trigger; rw [if_neg]; rw [hv0, hy]; norm_num
        rw [ht] at h1 h2
        rw [if_pos h9, h1] at hm
        exact key _ hm h2 hs hy
      · by_cases h8 : status raw = 8
        · cases hk : s.key with
          | none => rw [if_neg h9, if_pos h8, Synth.noteOff, hk] at hm; simp only at hm; rw [Synth.step, hm] at hr; cases hr
          | some k =>
            rw [if_neg h9, if_pos h8, noteOff_eq s _ k hk] at hm
            refine key _ hm ?_ ?_ ?_
            · split_ifs
              · exact release_inv h
              · exact h
            · split_ifs
              · simp [Env.release, hs]
              · exact hs
            · split_ifs
              · simp [Env.release, hs, hy]
              · exact hy
        · rw [if_neg h9, if_neg h8] at hm
          exact key _ hm h hs hy

/-- An event that starts no note: what it does to the envelope. -/
theorem quiet_step {sps : Nat} (hsps : 8000 ≤ sps) {s : Synth} (h : SynthInv sps s) (ev : SynthEvent) (hq : ev.sounds = false) {s' : Synth} {o : List (ℚ × ℚ)}
    (hr : s.step fl32 fl64 sps ev = .ok (s', o)) :
    SynthInv sps s' ∧ ((∃ v x, Env.tick fl32 fl64 s.env = .ok (s'.env, v) ∧ o = [(x, x)] ∧ (v = 0 → x = 0)) ∨
      (o = [] ∧ (s'.env = s.env ∨ (ev.isOff = true ∧ s'.env = Env.release s.env)))) := by
  cases ev with
  | frame =>
    obtain ⟨e, v, s1, o1, h1, h2, h3, h4, h5, h6, h7, h8⟩ := frame_ok h
    rw [Synth.step, h2] at hr
    cases hr
    exact ⟨h3, .inl ⟨v, o1, by rw [h1, h4], rfl, h8⟩⟩
  | midi raw =>
    have hm := midi_eq fl32 fl64 sps s raw
    rw [Synth.step] at hr
    by_cases h9 : status raw = 9
    · have hv0 : (velOf raw).toNat = 0 := by simpa [SynthEvent.sounds, h9] using hq
      obtain ⟨i, h1, h2⟩ := noteOn_ok hsps h (keyOf raw) (velOf raw) (by omega)
      have ht : Env.trigger s.env ((velOf raw).toNat / 128) 1 = s.env := by
        unfold Env.trigger; rw [if_neg]; rw [hv0]; have := h.inv.y.2.1; norm_num; exact this
      rw [ht] at h1 h2
      rw [hm, if_pos h9, h1] at hr
      cases hr
      exact ⟨h2, .inr ⟨rfl, .inl rfl⟩⟩
    · by_cases h8 : status raw = 8
      · cases hk : s.key with
        | none => rw [hm, if_neg h9, if_pos h8, Synth.noteOff, hk] at hr; cases hr
        | some k =>
          rw [hm, if_neg h9, if_pos h8, noteOff_eq s _ k hk] at hr
          cases hr
          refine ⟨?_, .inr ⟨rfl, ?_⟩⟩
          · split_ifs
            · exact release_inv h
            · exact h
          · split_ifs
            · exact .inr ⟨by simp [SynthEvent.isOff, h8], rfl⟩
            · exact .inl rfl
      · rw [hm, if_neg h9, if_neg h8] at hr
        cases hr
        exact ⟨h, .inr ⟨rfl, .inl rfl⟩⟩

theorem run_cons_ok {sps : Nat} {s s' : Synth} {ev : SynthEvent} {evs : List SynthEvent} {o : List (ℚ × ℚ)}
    (h : s.run fl32 fl64 sps (ev :: evs) = .ok (s', o)) :
    ∃ s1 o1 o2, s.step fl32 fl64 sps ev = .ok (s1, o1) ∧ s1.run fl32 fl64 sps evs = .ok (s', o2) ∧ o = o1 ++ o2 := by
  rw [Synth.run] at h
  cases h1 : s.step fl32 fl64 sps ev with
  | error b => rw [h1] at h; cases h
  | ok q =>
    rw [h1] at h
    obtain ⟨s1, o1⟩ := q
    simp only [bind, Except.bind, pure, Except.pure] at h
    cases h2 : s1.run fl32 fl64 sps evs with
    | error b => rw [h2] at h; cases h
    | ok q2 => rw [h2] at h; cases h; exact ⟨s1, o1, q2.2, rfl, h2, rfl⟩

theorem run_append {sps : Nat} (a b : List SynthEvent) (s : Synth) :
    s.run fl32 fl64 sps (a ++ b) = (do let (s1, o1) ← s.run fl32 fl64 sps a; let (s2, o2) ← s1.run fl32 fl64 sps b; return (s2, o1 ++ o2)) := by
  induction a generalizing s with
  | nil =>
    rw [List.nil_append, Synth.run, PD.ok_bind]
    simp only
    cases s.run fl32 fl64 sps b <;> rfl
  | cons e a ih =>
    rw [List.cons_append, Synth.run, Synth.run]
    cases s.step fl32 fl64 sps e with
    | error b => rfl
    | ok q =>
      obtain ⟨s1, o1⟩ := q
      rw [PD.ok_bind, PD.ok_bind]
      simp only
      rw [ih]
      cases s1.run fl32 fl64 sps a with
      | error b => rfl
      | ok q2 =>
        obtain ⟨s2, o2⟩ := q2
        rw [PD.ok_bind, PD.ok_bind]
        simp only [pure, Except.pure]
        rw [PD.ok_bind]
        simp only
        cases s2.run fl32 fl64 sps b with
        | error b => rfl
        | ok q3 => simp only [bind, Except.bind, List.append_assoc]

/-- A released envelope. -/
def Released (e : Env.Envelope) : Prop := e.state = .release ∨ (e.state = .noteOff ∧ e.y = 0)

theorem Released.release {e : Env.Envelope} (h : Released e) : Env.release e = e := by
  unfold Env.release
  rcases h with h | h
  · rw [if_pos (by rw [h]; simp)]
    cases e; cases h; rfl
  · rw [if_neg (by simp [h.1])]

theorem Released.tick {e e' : Env.Envelope} {v : ℚ} (h : Released e) (h0 : e.noteOffLevel = 0) (h1 : e.endNoteOffLevel = 0)
    (ht : Env.tick fl32 fl64 e = .ok (e', v)) : Released e' := by
  rcases h with h | h
  · unfold Env.tick at ht
    rw [h] at ht
    cases ht
    unfold Env.updateRelease
    simp only [h0, h1, lt_irrefl, if_false]
    split_ifs
    · exact .inr ⟨rfl, rfl⟩
    · exact .inl h
    · exact .inl h
  · rw [C43_off_is_silent fl32 fl64 _ h.1] at ht
    cases ht
    exact .inr h

/-- A released synthesizer: from the `N`-th frame on it is silent, its envelope off. -/
theorem released_run {sps : Nat} (hsps : 8000 ≤ sps) (evs : List SynthEvent) {s : Synth} (h : SynthInv sps s) (hrel : Released s.env) (N : Nat)
    (hN : ∀ n, N ≤ n → ∃ e', ticks fl32 fl64 n s.env = .ok e' ∧ e'.state = .noteOff ∧ e'.y = 0)
    (hns : ∀ ev ∈ evs, ev.sounds = false) {s' : Synth} {o : List (ℚ × ℚ)} (hr : s.run fl32 fl64 sps evs = .ok (s', o)) :
    (∀ n p, N ≤ n → o[n]? = some p → p = (0, 0)) ∧ (N ≤ o.length → s'.env.state = .noteOff) := by
  induction evs generalizing s o N with
  | nil =>
    cases hr
    refine ⟨by simp, fun hl => ?_⟩
    obtain ⟨e', t1, t2, -⟩ := hN 0 hl
    cases t1; exact t2
  | cons ev evs ih =>
    obtain ⟨s1, o1, o2, h1, h2, rfl⟩ := run_cons_ok hr
    have hrest : ∀ ev ∈ evs, ev.sounds = false := fun e he => hns e (by simp [he])
    obtain ⟨hi, hh⟩ := quiet_step hsps h ev (hns ev (by simp)) h1
    rcases hh with ⟨v, x, t1, rfl, hx⟩ | ⟨rfl, he⟩
    · have hr1 := hrel.tick h.off h.endOff t1
      have hM : ∀ M, (∀ n, M + 1 ≤ n → N ≤ n) → ∀ n, M ≤ n → ∃ e', ticks fl32 fl64 n s1.env = .ok e' ∧ e'.state = .noteOff ∧ e'.y = 0 := by
        intro M hM n hn
        obtain ⟨e', a1, a2⟩ := hN (n + 1) (hM _ (by omega))
        refine ⟨e', ?_, a2⟩
        rw [ticks, t1] at a1
        exact a1
      rcases Nat.eq_zero_or_pos N with h0 | h0
      · subst h0
        obtain ⟨b1, b2⟩ := ih hi hr1 0 (hM 0 (by omega)) hrest h2
        refine ⟨fun n p hn hp => ?_, fun _ => b2 (by omega)⟩
        cases n with
        | zero =>
          obtain ⟨e', a1, a2, a3⟩ := hN 0 le_rfl
          cases a1
          rw [C43_off_is_silent fl32 fl64 _ a2] at t1
          injection t1 with t1
          injection t1 with t1 t2
          rw [hx t2.symm] at hp
          simpa using hp.symm
        | succ n => exact b1 n p (by omega) (by simpa using hp)
      · obtain ⟨b1, b2⟩ := ih hi hr1 (N - 1) (hM (N - 1) (by omega)) hrest h2
        refine ⟨fun n p hn hp => ?_, fun hl => b2 (by simp at hl; omega)⟩
        obtain ⟨n, rfl⟩ : ∃ m, n = m + 1 := ⟨n - 1, by omega⟩
        exact b1 n p (by omega) (by simpa using hp)
    · have he' : s1.env = s.env := by
        rcases he with he | ⟨-, he⟩
        · exact he
        · rw [he, hrel.release]
      exact ih hi (by rw [he']; exact hrel) N (by rw [he']; exact hN) hrest h2

theorem release_ends {sps : Nat} {s : Synth} (h : SynthInv sps s) (hrel : Released s.env) :
    ∃ N, ∀ n, N ≤ n → ∃ e', ticks fl32 fl64 n s.env = .ok e' ∧ e'.state = .noteOff ∧ e'.y = 0 := by
  rcases hrel with hr | hr
  · obtain ⟨k, hk⟩ := exists_nat_gt (s.env.y / (2 : ℚ) ^ (-149 : ℤ))
    have hk' : s.env.y ≤ k * (2 : ℚ) ^ (-149 : ℤ) := by
      rw [div_lt_iff₀ (two_zpow_pos _)] at hk; exact hk.le
    obtain ⟨N, _, hN⟩ := Env.release_fin (fd := fl64) fl32_lawful hysteresis_ge (fl32_lawful.rep _) k s.env hr h.off h.endOff h.inv.release h.inv.y.1 h.inv.y.2.1 hk'
    exact ⟨N, hN⟩
  · exact ⟨0, fun n _ => ⟨s.env, Env.ticks_off fl32 fl64 hr.1 n, hr⟩⟩

theorem release_released {sps : Nat} {s : Synth} (h : SynthInv sps s) : Released (Env.release s.env) := by
  unfold Env.release
  split_ifs with hc
  · exact .inl rfl
  · exact .inr ⟨not_not.1 hc, h.z (not_not.1 hc)⟩

theorem quiet_valid {ev : SynthEvent} (h : ev.sounds = false) : ValidEvent ev := by
  cases ev with
  | frame => trivial
  | midi raw =>
    intro h9
    have : (velOf raw).toNat = 0 := by simpa [SynthEvent.sounds, h9] using h
    omega

theorem lastKey_some (evs : List SynthEvent) {k : Option (BitVec 8)} (h : k ≠ none) : lastKey evs k ≠ none := by
  induction evs generalizing k with
  | nil => exact h
  | cons e evs ih =>
    cases e with
    | frame => exact ih h
    | midi raw => rw [lastKey]; apply ih; split_ifs <;> simp [h]

theorem ordered_of_some (evs : List SynthEvent) {k : Option (BitVec 8)} (h : k ≠ none) : Ordered evs k := fun a _ _ _ _ => lastKey_some a h

end Example

/-- **C100** (IEEE rounding included) The synthesizer is safe and never clips: for every interleaving of MIDI messages and audio frames at any sampling rate from
8 kHz, if no note-off precedes the first note-on, every event succeeds, each frame writes one sample, the same to both channels, in `[-1, 1]`. -/
theorem C100_bounded (c : Env.Config) (sps : Nat) (hsps : 8000 ≤ sps) (hc : ValidConfig c sps) (evs : List SynthEvent) (hv : ∀ ev ∈ evs, ValidEvent ev)
    (ho : Ordered evs none) :
    ∃ s o, (Synth.mk' fl32 fl64 c sps).run fl32 fl64 sps evs = .ok (s, o) ∧ o.length = frames evs ∧ ∀ p ∈ o, p.1 = p.2 ∧ -1 ≤ p.1 ∧ p.1 ≤ 1 := by
  obtain ⟨s, o, h1, _, _, h4, h5⟩ := run_ok hsps evs (synth_mk_inv hc) hv ho
  exact ⟨s, o, h1, h5, h4⟩

/-- **C100** Nothing sounds before the first note-on with a velocity other than 0: all samples are 0. -/
theorem C100_silent_start (c : Env.Config) (sps : Nat) (hsps : 8000 ≤ sps) (hc : ValidConfig c sps) (evs : List SynthEvent)
    (hns : ∀ ev ∈ evs, ev.sounds = false) (s : Synth) (o : List (ℚ × ℚ)) (hr : (Synth.mk' fl32 fl64 c sps).run fl32 fl64 sps evs = .ok (s, o)) :
    ∀ p ∈ o, p = (0, 0) :=
  silent_run hsps evs (synth_mk_inv hc) rfl rfl hns hr

/-- **C100** A note-on tunes the oscillator to its key: after any history, the note-on of a key from 9 (A-1) to 119 (B8) sets the frequency of the oscillator (increment per
sample times the rate, in turns) to within `sps / 2^32` of the equal-tempered frequency of the key (rounding included), and starts the attack towards velocity / 128 if the envelope is below that. -/
theorem C100_note_on (c : Env.Config) (sps : Nat) (hsps : 8000 ≤ sps) (hsps2 : sps < 2 ^ 32) (hc : ValidConfig c sps) (evs : List SynthEvent) (hv : ∀ ev ∈ evs, ValidEvent ev)
    (ho : Ordered evs none) (raw : BitVec 32) (hon : status raw = 9) (hvel : (velOf raw).toNat < 128) (hk1 : 9 ≤ (keyOf raw).toNat) (hk2 : (keyOf raw).toNat ≤ 119) :
    ∃ s s' o, (Synth.mk' fl32 fl64 c sps).run fl32 fl64 sps evs = .ok (s, o) ∧ (Synth.mk' fl32 fl64 c sps).run fl32 fl64 sps (evs ++ [.midi raw]) = .ok (s', o) ∧
      |((s'.phase.incr.toNat : ℚ) : ℝ) / 2 ^ 32 * sps - Midi.equalTempered (keyOf raw).toNat| ≤ (sps : ℝ) / 2 ^ 32 * (1 + 1 / 2 ^ 21) + Midi.equalTempered (keyOf raw).toNat / 10 ^ 14 ∧
      (s.env.y < ((velOf raw).toNat : ℚ) / 128 → s'.env.state = .attack ∧ s'.env.level = some (((velOf raw).toNat : ℚ) / 128)) ∧
      (((velOf raw).toNat : ℚ) / 128 ≤ s.env.y → s'.env = s.env) := by
  obtain ⟨s1, o, h1, h2, h3, _, h5⟩ := run_ok hsps evs (synth_mk_inv hc) hv ho
  obtain ⟨i, n1, n2⟩ := noteOn_ok hsps h2 (keyOf raw) (velOf raw) hvel
  have hm := midi_eq fl32 fl64 sps s1 raw
  rw [if_pos hon, n1] at hm
  refine ⟨s1, { s1 with key := some (keyOf raw), phase := { s1.phase with incr := i }, env := Env.trigger s1.env ((velOf raw).toNat / 128) 1 }, o, h1, ?_, ?_, ?_, ?_⟩
  rotate_left
  · obtain ⟨f, f1, f2⟩ := n2.incr _ rfl
    obtain ⟨f', g1, g2⟩ := C40_equal_temperament fl64_lawful (keyOf raw) hk1 hk2
    obtain ⟨f'', k1, k2, k3⟩ := noteFrequency_le fl64_lawful (keyOf raw)
    have e1 : f' = f := by rw [f1] at g1; injection g1 with g1; exact g1.symm
    have e2 : f'' = f := by rw [f1] at k1; injection k1 with k1; exact k1.symm
    subst e1; subst e2
    have hsQ : (8000 : ℚ) ≤ sps := by exact_mod_cast hsps
    have hrep : Rep 53 (-1074) f'' := by
      rw [Midi.noteFrequency_split fl64 _ hk1 hk2] at f1
      injection f1 with f1
      rw [← f1]
      generalize hj : ((keyOf raw).toNat - 9) % 12 = j
      cases j with
      | zero =>
        refine ⟨55 * 2 ^ (((keyOf raw).toNat - 9) / 12), -2, ?_, by norm_num, ?_⟩
        · rw [abs_of_nonneg (by positivity)]
          calc (55 * 2 ^ (((keyOf raw).toNat - 9) / 12) : ℤ) ≤ 55 * 2 ^ 9 := by
                apply mul_le_mul_of_nonneg_left _ (by norm_num)
                exact pow_le_pow_right₀ (by norm_num) (by omega)
            _ ≤ _ := by norm_num
        · rw [Midi.octaveFrequency]; push_cast; norm_num; ring
      | succ j => exact fl64_lawful.rep _
    obtain ⟨d, d1, d2⟩ := C30_frequency f'' sps k2 (by linarith) hsps2 hrep
    have e3 : d = i := by rw [f2] at d1; injection d1 with d1; exact d1.symm
    subst e3
    have d3 := d2 1
    have hsp : (0 : ℝ) < sps := by exact_mod_cast (by omega : 0 < sps)
    have d4 : |((d.toNat : ℚ) : ℝ) - 2 ^ 32 * ((f'' : ℝ) / sps)| ≤ 1 + 1 / 2 ^ 21 := by
      have : ((|(d.toNat : ℚ) - 2 ^ 32 * (f'' / sps)| : ℚ) : ℝ) ≤ ((1 + 1 / 2 ^ 21 : ℚ) : ℝ) := by
        rw [Nat.cast_one, one_mul, one_mul, one_mul] at d3
        exact Rat.cast_le.2 d3
      push_cast at this ⊢
      exact this
    have d5 : |((d.toNat : ℚ) : ℝ) / 2 ^ 32 * sps - (f'' : ℝ)| ≤ (sps : ℝ) / 2 ^ 32 * (1 + 1 / 2 ^ 21) := by
      have e : ((d.toNat : ℚ) : ℝ) / 2 ^ 32 * sps - f'' = sps / 2 ^ 32 * (((d.toNat : ℚ) : ℝ) - 2 ^ 32 * ((f'' : ℝ) / sps)) := by
        field_simp
      rw [e, abs_mul, abs_of_pos (by positivity)]
      exact mul_le_mul_of_nonneg_left d4 (by positivity)
    calc |((d.toNat : ℚ) : ℝ) / 2 ^ 32 * sps - Midi.equalTempered (keyOf raw).toNat|
        ≤ |((d.toNat : ℚ) : ℝ) / 2 ^ 32 * sps - f''| + |(f'' : ℝ) - Midi.equalTempered (keyOf raw).toNat| := abs_sub_le _ _ _
      _ ≤ _ := add_le_add d5 g2
  · intro hlt
    show (Env.trigger s1.env _ 1).state = _ ∧ (Env.trigger s1.env _ 1).level = _
    unfold Env.trigger; rw [if_pos hlt]; exact ⟨rfl, rfl⟩
  · intro hle
    show Env.trigger s1.env _ 1 = _
    unfold Env.trigger; rw [if_neg (not_lt.2 hle)]
  · rw [run_append, h1, PD.ok_bind]
    simp only
    rw [Synth.run, Synth.step, hm]
    simp only [bind, Except.bind, pure, Except.pure, Synth.run, List.append_nil]

/-- **C100** (IEEE rounding included) A note ends: after any history, the note-off of the key last pressed is followed, however the other messages and the frames are
interleaved, by silence: there is a number of frames after which every sample is 0 for as long as no note-on (with a velocity other than 0) comes. -/
theorem C100_note_off_silences (c : Env.Config) (sps : Nat) (hsps : 8000 ≤ sps) (hc : ValidConfig c sps) (evs : List SynthEvent) (hv : ∀ ev ∈ evs, ValidEvent ev)
    (ho : Ordered evs none) (raw : BitVec 32) (hoff : status raw = 8) (hk : lastKey evs none = some (keyOf raw)) :
    ∃ N, ∀ evs2 : List SynthEvent, (∀ ev ∈ evs2, ev.sounds = false) →
      ∃ s o o2, (Synth.mk' fl32 fl64 c sps).run fl32 fl64 sps (evs ++ .midi raw :: evs2) = .ok (s, o ++ o2) ∧ o.length = frames evs ∧ o2.length = frames evs2 ∧
        (∀ n p, N ≤ n → o2[n]? = some p → p = (0, 0)) ∧ (N ≤ frames evs2 → s.env.state = .noteOff) := by
  obtain ⟨s1, o, h1, h2, h3, _, h5⟩ := run_ok hsps evs (synth_mk_inv hc) hv ho
  have hk1 : s1.key = some (keyOf raw) := h3.trans hk
  have hm := midi_eq fl32 fl64 sps s1 raw
  rw [if_neg (by omega), if_pos hoff, noteOff_eq s1 _ _ hk1, if_pos rfl] at hm
  have hi := release_inv h2
  obtain ⟨N, hN⟩ := release_ends hi (release_released h2)
  refine ⟨N, fun evs2 hq => ?_⟩
  obtain ⟨s2, o2, r1, r2, r3, r4, r5⟩ := run_ok hsps evs2 hi (fun ev he => quiet_valid (hq ev he)) (ordered_of_some _ (by simp [hk1]))
  obtain ⟨q1, q2⟩ := released_run hsps evs2 hi (release_released h2) N hN hq r1
  refine ⟨s2, o, o2, ?_, h5, r5, q1, by rw [← r5]; exact q2⟩
  rw [run_append, h1, PD.ok_bind]
  simp only
  rw [Synth.run, Synth.step, hm, PD.ok_bind]
  simp only [pure, Except.pure]
  rw [PD.ok_bind]
  simp only
  rw [r1]
  rfl

/-- **A note-on with velocity 0 does not end the note** (it must: MIDI 1.0 defines it as a note-off): after any history it has no effect at all when it names the key
last pressed; everything that follows is as if it had not been sent. -/
theorem C100_velocity_zero_violation (c : Env.Config) (sps : Nat) (hsps : 8000 ≤ sps) (hc : ValidConfig c sps) (evs : List SynthEvent)
    (hv : ∀ ev ∈ evs, ValidEvent ev) (ho : Ordered evs none) (raw : BitVec 32) (hon : status raw = 9) (h0 : velOf raw = 0) (hk : lastKey evs none = some (keyOf raw))
    (evs2 : List SynthEvent) :
    (Synth.mk' fl32 fl64 c sps).run fl32 fl64 sps (evs ++ .midi raw :: evs2) = (Synth.mk' fl32 fl64 c sps).run fl32 fl64 sps (evs ++ evs2) := by
  obtain ⟨s1, o, h1, h2, h3, _, h5⟩ := run_ok hsps evs (synth_mk_inv hc) hv ho
  have hk1 : s1.key = some (keyOf raw) := h3.trans hk
  have hm := midi_eq fl32 fl64 sps s1 raw
  have hv0 : (velOf raw).toNat = 0 := by rw [h0]; rfl
  obtain ⟨f, f1, f2⟩ := h2.incr _ hk1
  have ht : Env.trigger s1.env (fl32 ((velOf raw).toNat / 128)) 1 = s1.env := by
    unfold Env.trigger; rw [if_neg]; rw [hv0]; have := h2.inv.y.2.1; norm_num [fl32_lawful.zero]; exact this
  have hs : s1.midi fl32 fl64 sps raw = .ok s1 := by
    rw [hm, if_pos hon, Synth.noteOn, f1, PD.ok_bind, Phase.Iter.set, f2, ht, ← hk1]
    rfl
  rw [run_append, run_append, h1, PD.ok_bind, PD.ok_bind]
  simp only
  rw [Synth.run, Synth.step, hs]
  simp only [bind, Except.bind, pure, Except.pure]
  cases s1.run fl32 fl64 sps evs2 <;> simp

/-- **A note-off before any note-on reads an uninitialised member** (the key last pressed). -/
theorem C100_early_note_off_violation (c : Env.Config) (sps : Nat) (raw : BitVec 32) (hoff : status raw = 8) (evs : List SynthEvent) :
    (Synth.mk' fl32 fl64 c sps).run fl32 fl64 sps (.midi raw :: evs) = .error .uninit := by
  have hm := midi_eq fl32 fl64 sps (Synth.mk' fl32 fl64 c sps) raw
  rw [if_neg (by omega), if_pos hoff] at hm
  rw [Synth.run, Synth.step, hm]
  rfl

/-- The hypotheses are met: A4 pressed at velocity 100, 50 frames, A4 released, at 44.1 kHz. -/
example : (∀ ev ∈ SynthEvent.midi 0x644590#32 :: List.replicate 50 SynthEvent.frame, ValidEvent ev) ∧
    Ordered (SynthEvent.midi 0x644590#32 :: List.replicate 50 SynthEvent.frame) none ∧ status 0x004580#32 = 8 ∧
    lastKey (SynthEvent.midi 0x644590#32 :: List.replicate 50 SynthEvent.frame) none = some (keyOf 0x004580#32) ∧
    ValidConfig ⟨1 / 10, 1, 1 / 4, 5, 1⟩ 44100 := by
  refine ⟨?_, ?_, by decide, by decide, by unfold ValidConfig; norm_num⟩
  · intro ev he
    rcases List.mem_cons.1 he with rfl | he
    · intro _; decide
    · rw [List.eq_of_mem_replicate he]; trivial
  · intro a ev b h hoff
    cases a with
    | nil => injection h with h _; rw [← h] at hoff; revert hoff; decide
    | cons x a => injection h with h _; rw [← h, lastKey]; exact lastKey_some a (by decide)

end Verif
