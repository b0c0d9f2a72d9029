import Verif.Model.Wav
import Mathlib.Tactic.Linarith
import Mathlib.Tactic.Ring
import Mathlib.Data.List.GetD
/-!
# C63: `wav_memory` delivers the frames of the file in order
-/
namespace Verif
open Wav
namespace Wav
variable {α : Type} [Zero α]

/-- Sample `i` of a list, zero outside. -/
def at0 (l : List α) (i : Nat) : α := (l[i]?).getD 0

theorem at0_append_left (l l' : List α) (i : Nat) (h : i < l.length) : at0 (l ++ l') i = at0 l i := by
  unfold at0; rw [List.getElem?_append_left h]
theorem at0_append_right (l l' : List α) (i : Nat) (h : l.length ≤ i) : at0 (l ++ l') i = at0 l' (i - l.length) := by
  unfold at0; rw [List.getElem?_append_right h]
theorem at0_drop (l : List α) (n i : Nat) : at0 (l.drop n) i = at0 l (n + i) := by
  unfold at0; rw [List.getElem?_drop]
theorem at0_zeros (n i : Nat) : at0 (List.replicate n (0 : α)) i = 0 := by
  unfold at0; rw [List.getElem?_replicate]; split_ifs <;> rfl
theorem at0_big (l : List α) (i : Nat) (h : l.length ≤ i) : at0 l i = 0 := by
  unfold at0; rw [List.getElem?_eq_none h]; rfl
theorem at0_take (l : List α) (n i : Nat) (h : i < n) : at0 (l.take n) i = at0 l i := by
  unfold at0; rw [List.getElem?_take_of_lt h]
theorem at0_pad (l : List α) (n i : Nat) : at0 (l ++ List.replicate n 0) i = at0 l i := by
  by_cases h : i < l.length
  · rw [at0_append_left _ _ _ h]
  · rw [at0_append_right _ _ _ (by omega), at0_zeros, at0_big _ _ (by omega)]

theorem take_eq_map (l : List α) (n : Nat) (h : n ≤ l.length) : l.take n = (List.range n).map (at0 l) := by
  apply List.ext_getElem?
  intro i
  by_cases hi : i < n
  · rw [List.getElem?_take_of_lt hi]
    have : i < l.length := by omega
    simp [at0, hi, this]
  · rw [List.getElem?_eq_none (by simp; omega), List.getElem?_eq_none (by simp; omega)]

/-- The samples still to be delivered: those in the buffer after the current frame, then those not yet read. -/
def future (m : Memory α) : List α :=
  match m.wav with
  | none => []
  | some r => (if m.first_read then m.buff.drop (m.pos.getD 0 + r.channels) else []) ++ r.data.drop r.pos

/-- The states of an opened file: the buffer is a positive number of whole frames, the position a multiple of the frame size inside it. -/
structure Inv (data : List α) (nc : Nat) (m : Memory α) : Prop where
  nc_pos : 0 < nc
  buff : ∃ B, 0 < B ∧ m.buff.length = B * nc ∧ B * nc < 2 ^ 32
  pos : m.first_read = true → ∃ q, m.pos = some (q * nc) ∧ q * nc < m.buff.length
  wav : ∃ p, m.wav = some ⟨data, p, nc⟩ ∧ p ≤ data.length

theorem call_spec (data : List α) (nc : Nat) (m : Memory α) (hi : Inv data nc m) :
    ∃ m', m.call = .ok ((List.range nc).map (at0 (future m)), m') ∧ Inv data nc m' ∧
      ∀ i, at0 (future m') i = at0 (future m) (nc + i) := by
  obtain ⟨hnc, ⟨B, hB, hlen, h32⟩, hpos, ⟨p, hw, hp⟩⟩ := hi
  have hBnc : nc ≤ B * nc := Nat.le_mul_of_pos_left nc hB
  -- refilling, when nothing is pending
  have hrefill : (if m.first_read then m.buff.drop (m.pos.getD 0 + nc) else []) = ([] : List α) →
      ∃ b r', refill (⟨data, p, nc⟩ : Reader α) m.buff = (b, r') ∧
        frameAt b 0 nc = .ok ((List.range nc).map (at0 (future m))) ∧ Inv data nc ⟨some r', b, some 0, true⟩ ∧
        ∀ i, at0 (future ⟨some r', b, some 0, true⟩) i = at0 (future m) (nc + i) := by
    intro hpend
    have hfut : future m = data.drop p := by unfold future; rw [hw]; simp only [hpend, List.nil_append]
    have hmod : m.buff.length % 2 ^ 32 = B * nc := by rw [hlen, Nat.mod_eq_of_lt h32]
    have hgl : ((data.drop p).take (B * nc)).length = min (B * nc) (data.length - p) := by simp
    unfold refill Reader.read
    simp only [hmod]
    have fr : ∀ b : List α, nc ≤ b.length → frameAt b 0 nc = .ok ((List.range nc).map (at0 b)) := by
      intro b hb
      unfold frameAt
      rw [if_pos ⟨by omega, by omega⟩, List.drop_zero, take_eq_map _ _ hb]
    by_cases h0 : ((data.drop p).take (B * nc)).length = 0
    · rw [if_pos h0]
      have hpe : data.length ≤ p := by rw [hgl] at h0; omega
      have hnil : data.drop p = [] := List.drop_eq_nil_of_le hpe
      refine ⟨_, _, rfl, ?_, ⟨hnc, ⟨1, by omega, by simp, by omega⟩, fun _ => ⟨0, by simp, by simpa using hnc⟩, ⟨_, rfl, ?_⟩⟩, ?_⟩
      · rw [fr _ (by simp), hfut, hnil]
        congr 1
        apply List.map_congr_left
        intro i _
        rw [at0_zeros, at0_big _ _ (by simp)]
      · exact Nat.min_le_right _ _
      · intro i
        have hz : at0 (future m) (nc + i) = 0 := by rw [hfut, hnil]; exact at0_big _ _ (by simp)
        rw [hz]
        unfold future
        simp only [if_true, Option.getD_some, Nat.zero_add]
        rw [List.drop_eq_nil_of_le (by simp), List.drop_eq_nil_of_le (by omega)]
        exact at0_big _ _ (by simp)
    · rw [if_neg h0]
      by_cases h1 : ((data.drop p).take (B * nc)).length ≠ m.buff.length
      · rw [if_pos h1]
        have hshort : data.length - p < B * nc := by rw [hgl, hlen] at h1; omega
        have hall : (data.drop p).take (B * nc) = data.drop p := List.take_of_length_le (by simp; omega)
        rw [hall, hlen]
        refine ⟨_, _, rfl, ?_, ⟨hnc, ⟨B, hB, by simp; omega, h32⟩, fun _ => ⟨0, by simp, by simp; omega⟩, ⟨_, rfl, ?_⟩⟩, ?_⟩
        · rw [fr _ (by simp; omega), hfut]
          congr 1
          apply List.map_congr_left
          intro i _
          rw [at0_pad]
        · exact Nat.min_le_right _ _
        · intro i
          rw [hfut]
          unfold future
          simp only [if_true, Option.getD_some, Nat.zero_add]
          rw [List.drop_eq_nil_of_le (as := data) (i := min (p + B * nc) data.length) (by omega), List.append_nil, at0_drop, at0_pad]
      · rw [if_neg h1]
        have hfull : B * nc ≤ data.length - p := by
          rw [not_not, hgl, hlen] at h1; omega
        have hl : ((data.drop p).take (B * nc)).length = B * nc := by rw [hgl]; omega
        refine ⟨_, _, rfl, ?_, ⟨hnc, ⟨B, hB, hl, h32⟩, fun _ => ⟨0, by simp, by rw [hl]; omega⟩, ⟨_, rfl, ?_⟩⟩, ?_⟩
        · rw [fr _ (by rw [hl]; exact hBnc), hfut]
          congr 1
          apply List.map_congr_left
          intro i hi
          rw [at0_take _ _ _ (by have := List.mem_range.mp hi; omega)]
        · exact Nat.min_le_right _ _
        · intro i
          rw [hfut]
          unfold future
          simp only [if_true, Option.getD_some, Nat.zero_add]
          rw [Nat.min_eq_left (by omega)]
          by_cases hi : nc + i < B * nc
          · rw [at0_append_left _ _ _ (by rw [List.length_drop, hl]; omega), at0_drop, at0_take _ _ _ hi]
          · rw [at0_append_right _ _ _ (by rw [List.length_drop, hl]; omega), List.length_drop, hl, at0_drop, at0_drop]
            congr 1
            omega
  unfold Memory.call
  rw [hw]
  simp only
  by_cases hf : m.first_read = true
  · obtain ⟨q, hq, hqlt⟩ := hpos hf
    rw [hf, hq]
    simp only
    by_cases hge : q * nc + nc ≥ m.buff.length
    · have hpend : (if m.first_read then m.buff.drop (m.pos.getD 0 + nc) else []) = ([] : List α) := by
        rw [if_pos hf, hq]
        exact List.drop_eq_nil_of_le (by simpa using hge)
      obtain ⟨b, r', e1, e2, e3, e4⟩ := hrefill hpend
      rw [if_pos (by simpa using hge), e1]
      simp only [e2]
      exact ⟨_, rfl, e3, e4⟩
    · have hq1 : q * nc + nc < B * nc := by rw [hlen] at hge; omega
      have hq2 : (q + 1) * nc = q * nc + nc := by ring
      have hq3 : q + 1 < B := by
        by_contra hc
        have : B * nc ≤ (q + 1) * nc := Nat.mul_le_mul_right _ (by omega)
        omega
      have hq4 : (q + 2) * nc ≤ B * nc := Nat.mul_le_mul_right _ (by omega)
      have hq5 : (q + 2) * nc = q * nc + nc + nc := by ring
      rw [if_neg (by simpa using hge)]
      simp only [Option.getD_some]
      have hfut : future m = m.buff.drop (q * nc + nc) ++ data.drop p := by
        unfold future; rw [hw]; simp only [hf, hq, if_true, Option.getD_some]
      have hfr : frameAt m.buff (q * nc + nc) nc = .ok ((List.range nc).map (at0 (future m))) := by
        unfold frameAt
        rw [if_pos ⟨by omega, by omega⟩, take_eq_map _ _ (by rw [List.length_drop]; omega), hfut]
        congr 1
        apply List.map_congr_left
        intro i hi
        have := List.mem_range.mp hi
        rw [at0_append_left _ _ _ (by rw [List.length_drop]; omega)]
      rw [hfr]
      refine ⟨_, rfl, ⟨hnc, ⟨B, hB, hlen, h32⟩, fun _ => ⟨q + 1, by simp only [hq2], by rw [hq2]; show q * nc + nc < m.buff.length; omega⟩, ⟨p, rfl, hp⟩⟩, ?_⟩
      intro i
      rw [hfut]
      unfold future
      simp only [if_true, Option.getD_some]
      by_cases hi : i < m.buff.length - (q * nc + nc + nc)
      · rw [at0_append_left _ _ _ (by rw [List.length_drop]; omega), at0_append_left _ _ _ (by rw [List.length_drop]; omega),
          at0_drop, at0_drop]
        congr 1; omega
      · rw [at0_append_right _ _ _ (by rw [List.length_drop]; omega), at0_append_right _ _ _ (by rw [List.length_drop]; omega),
          List.length_drop, List.length_drop]
        congr 1; omega
  · have hf' : m.first_read = false := by simpa using hf
    have hpend : (if m.first_read then m.buff.drop (m.pos.getD 0 + nc) else []) = ([] : List α) := by rw [hf']; rfl
    obtain ⟨b, r', e1, e2, e3, e4⟩ := hrefill hpend
    rw [hf']
    simp only [if_true, e1, e2]
    exact ⟨_, rfl, e3, e4⟩

/-- Any number of calls: the frames are the successive pieces of the samples still to be delivered. -/
theorem calls_spec (data : List α) (nc : Nat) (m : Memory α) (hi : Inv data nc m) (n : Nat) :
    ∃ m', m.calls n = .ok ((List.range n).map (fun j => (List.range nc).map (fun i => at0 (future m) (j * nc + i))), m') ∧
      Inv data nc m' ∧ ∀ i, at0 (future m') i = at0 (future m) (n * nc + i) := by
  induction n with
  | zero => exact ⟨m, rfl, hi, by simp⟩
  | succ n ih =>
    obtain ⟨m1, e1, i1, f1⟩ := ih
    obtain ⟨m2, e2, i2, f2⟩ := call_spec data nc m1 i1
    refine ⟨m2, ?_, i2, ?_⟩
    · rw [Memory.calls, e1]
      simp only [e2]
      rw [List.range_succ, List.map_append]
      congr 2
      congr 1
      simp only [List.map_cons, List.map_nil]
      congr 1
      apply List.map_congr_left
      intro i _
      rw [f1]
    · intro i
      rw [f2, f1]
      congr 1; ring

/-- The state after `k ≥ 1` calls before the end of the file. -/
structure At (data : List α) (nc b k : Nat) (m : Memory α) : Prop where
  first : m.first_read = true
  pos : m.pos = some ((k - 1) % b * nc)
  len : m.buff.length = b * nc
  wav : m.wav = some ⟨data, min (((k - 1) / b + 1) * (b * nc)) data.length, nc⟩

theorem refill_at (data : List α) (nc b p : Nat) (buff : List α) (hnc : 0 < nc) (hb : 0 < b) (h32 : b * nc < 2 ^ 32)
    (hlen : buff.length = b * nc) (hp : p < data.length) :
    ∃ bf, refill (⟨data, p, nc⟩ : Reader α) buff = (bf, ⟨data, min (p + b * nc) data.length, nc⟩) ∧ bf.length = b * nc := by
  unfold refill Reader.read
  rw [hlen, Nat.mod_eq_of_lt h32]
  have hB : 0 < b * nc := Nat.mul_pos hb hnc
  have hgl : ((data.drop p).take (b * nc)).length = min (b * nc) (data.length - p) := by simp
  simp only
  rw [if_neg (by rw [hgl]; omega)]
  split_ifs with h
  · exact ⟨_, rfl, by rw [List.length_append, List.length_replicate, hgl]; omega⟩
  · exact ⟨_, rfl, by omega⟩

theorem at_first (data : List α) (nc b : Nat) (hnc : 0 < nc) (hb : 0 < b) (h32 : b * nc < 2 ^ 32) (hd : 0 < data.length)
    (f : List α) (m' : Memory α) (h : (Memory.make (some ⟨data, 0, nc⟩) b).call = .ok (f, m')) : At data nc b 1 m' := by
  obtain ⟨bf, e, hl⟩ := refill_at data nc b 0 (List.replicate (b * nc) 0) hnc hb h32 (by simp) hd
  unfold Memory.call Memory.make at h
  simp only [if_true, e] at h
  unfold frameAt at h
  have hB : nc ≤ b * nc := Nat.le_mul_of_pos_left nc hb
  rw [if_pos ⟨by omega, by omega⟩] at h
  injection h with h
  injection h with h1 h2
  subst h2
  exact ⟨rfl, by simp, hl, by simp⟩

theorem at_step (data : List α) (nc b k : Nat) (hnc : 0 < nc) (hb : 0 < b) (h32 : b * nc < 2 ^ 32) (hk : 1 ≤ k)
    (hd : k / b * (b * nc) < data.length) (m : Memory α) (hm : At data nc b k m)
    (f : List α) (m' : Memory α) (h : m.call = .ok (f, m')) : At data nc b (k + 1) m' := by
  obtain ⟨h1, h2, h3, h4⟩ := hm
  have hB : nc ≤ b * nc := Nat.le_mul_of_pos_left nc hb
  have hmod : (k - 1) % b < b := Nat.mod_lt _ hb
  have hk1 : b * ((k - 1) / b) + (k - 1) % b = k - 1 := Nat.div_add_mod _ _
  unfold Memory.call at h
  rw [h4] at h
  simp only [h1, h2, h3] at h
  set q := (k - 1) % b with hq
  set d := (k - 1) / b with hdd
  have hcases : q + 1 = b ∨ q + 1 < b := by omega
  rcases hcases with hc | hc
  · -- a new buffer
    have e1 : k = (d + 1) * b := by
      have : (d + 1) * b = b * d + b := by ring
      omega
    have e2 : k / b = d + 1 := by rw [e1]; exact Nat.mul_div_cancel _ hb
    have e3 : k % b = 0 := by rw [e1]; exact Nat.mul_mod_left _ _
    rw [e2] at hd
    have e4 : q * nc + nc = b * nc := by rw [← hc]; ring
    obtain ⟨bf, e, hl⟩ := refill_at data nc b ((d + 1) * (b * nc)) m.buff hnc hb h32 h3 hd
    rw [if_pos (by simp [e4]), Nat.min_eq_left hd.le, e] at h
    unfold frameAt at h
    simp only at h
    rw [if_pos ⟨by omega, by omega⟩] at h
    injection h with h
    injection h with h5 h6
    subst h6
    refine ⟨rfl, ?_, hl, ?_⟩
    · rw [Nat.add_sub_cancel, e3]; simp
    · rw [Nat.add_sub_cancel, e2]
      have : (d + 1) * (b * nc) + b * nc = (d + 1 + 1) * (b * nc) := by ring
      simp only [this]
  · -- the next frame of the same buffer
    have e1 : k = q + 1 + b * d := by omega
    have e2 : k / b = d := by
      rw [e1, Nat.add_mul_div_left _ _ hb, Nat.div_eq_of_lt hc, Nat.zero_add]
    have e3 : k % b = q + 1 := by
      rw [e1, Nat.add_mul_mod_self_left, Nat.mod_eq_of_lt hc]
    have e4 : (q + 1) * nc < b * nc := Nat.mul_lt_mul_of_pos_right hc hnc
    have e5 : (q + 1) * nc = q * nc + nc := by ring
    have e6 : (q + 1 + 1) * nc ≤ b * nc := Nat.mul_le_mul_right _ hc
    have e7 : (q + 1 + 1) * nc = q * nc + nc + nc := by ring
    rw [if_neg (by simp; omega)] at h
    simp only [Option.getD_some] at h
    unfold frameAt at h
    rw [if_pos ⟨by omega, by omega⟩] at h
    injection h with h
    injection h with h5 h6
    subst h6
    refine ⟨rfl, ?_, h3, ?_⟩
    · rw [Nat.add_sub_cancel, e3, e5]
    · rw [Nat.add_sub_cancel, e2]

theorem at_calls (data : List α) (nc b : Nat) (hnc : 0 < nc) (hb : 0 < b) (h32 : b * nc < 2 ^ 32) : ∀ k, 1 ≤ k →
    (k - 1) / b * (b * nc) < data.length → ∀ fs m', (Memory.make (some ⟨data, 0, nc⟩) b).calls k = .ok (fs, m') → At data nc b k m'
  | 0, h, _, _, _, _ => absurd h (by norm_num)
  | 1, _, hd, fs, m', h => by
    simp only [Memory.calls] at h
    cases hc : (Memory.make (some ⟨data, 0, nc⟩) b).call with
    | error e => rw [hc] at h; cases h
    | ok fm =>
      obtain ⟨f, m1⟩ := fm
      rw [hc] at h
      simp only at h
      injection h with h
      injection h with h5 h6
      subst h6
      exact at_first data nc b hnc hb h32 (by simpa using hd) f m1 hc
  | k + 2, _, hd, fs, m', h => by
    rw [Memory.calls] at h
    cases hc : (Memory.make (some ⟨data, 0, nc⟩) b).calls (k + 1) with
    | error e => rw [hc] at h; cases h
    | ok fm =>
      obtain ⟨fs1, m1⟩ := fm
      have hle : k / b * (b * nc) ≤ (k + 1) / b * (b * nc) := Nat.mul_le_mul_right _ (Nat.div_le_div_right (by omega))
      have hA := at_calls data nc b hnc hb h32 (k + 1) (by omega) (lt_of_le_of_lt hle hd) fs1 m1 hc
      rw [hc] at h
      simp only at h
      cases hc2 : m1.call with
      | error e => rw [hc2] at h; cases h
      | ok fm2 =>
        obtain ⟨f, m2⟩ := fm2
        rw [hc2] at h
        simp only at h
        injection h with h
        injection h with h5 h6
        subst h6
        exact at_step data nc b (k + 1) hnc hb h32 (by omega) hd m1 hA f m2 hc2

theorem inv_make (data : List α) (nc b : Nat) (hnc : 0 < nc) (hb : 0 < b) (h32 : b * nc < 2 ^ 32) :
    Inv data nc (Memory.make (some ⟨data, 0, nc⟩) b) :=
  ⟨hnc, ⟨b, hb, by simp [Memory.make], h32⟩, fun h => absurd h (by simp [Memory.make]), ⟨0, rfl, Nat.zero_le _⟩⟩

theorem future_make (data : List α) (nc b : Nat) : future (Memory.make (some ⟨data, 0, nc⟩) b) = data := by
  simp [future, Memory.make]

end Wav

/-- **C63.** For every file, number of channels and buffer size, `n` calls deliver the first `n` frames of the file in order, each once,
padded with zeros after the end of the file; no call reads outside the buffer. -/
theorem C63_frames {α : Type} [Zero α] (data : List α) (nc b : Nat) (hnc : 0 < nc) (hb : 0 < b) (h32 : b * nc < 2 ^ 32) (n : Nat) :
    ∃ m', (Memory.make (some ⟨data, 0, nc⟩) b).calls n =
      .ok ((List.range n).map (fun j => (List.range nc).map (fun i => (data[j * nc + i]?).getD 0)), m') := by
  obtain ⟨m', e, _, _⟩ := calls_spec data nc _ (inv_make data nc b hnc hb h32) n
  rw [future_make] at e
  exact ⟨m', e⟩

/-- The number of buffered frames not yet delivered after `k` calls. -/
def pendingFrames (b k : Nat) : Nat := (b - k % b) % b

/-- **C63.** `seek(t)` (and `restart()`, which is `seek(0)`) after `k` calls before the end of the file: the frames still in the buffer
are delivered first — `(b - k mod b) mod b` of them — and only then the file continues from sample `t`. -/
theorem C63_seek {α : Type} [Zero α] (data : List α) (nc b : Nat) (hnc : 0 < nc) (hb : 0 < b) (h32 : b * nc < 2 ^ 32)
    (k t : Nat) (ht : t ≤ data.length) (hk : (k - 1) / b * (b * nc) < data.length) (n : Nat) :
    ∃ fs m', (Memory.make (some ⟨data, 0, nc⟩) b).calls k = .ok (fs, m') ∧
      ∃ m'', (m'.seek t).calls n = .ok ((List.range n).map (fun j => (List.range nc).map (fun i =>
        if j < pendingFrames b k then (data[(k + j) * nc + i]?).getD 0
        else (data[t + (j - pendingFrames b k) * nc + i]?).getD 0)), m'') := by
  obtain ⟨m1, e1, i1, f1⟩ := calls_spec data nc _ (inv_make data nc b hnc hb h32) k
  rw [future_make] at f1
  refine ⟨_, m1, e1, ?_⟩
  obtain ⟨_, hbf, hps, p, hw, hp⟩ := i1
  have hinv : Inv data nc (m1.seek t) :=
    ⟨hnc, hbf, hps, t, by unfold Memory.seek Reader.seek; simp only [hw, Option.map_some], ht⟩
  obtain ⟨m2, e2, _, _⟩ := calls_spec data nc _ hinv n
  refine ⟨m2, ?_⟩
  rw [e2]
  congr 2
  apply List.map_congr_left
  intro j _
  apply List.map_congr_left
  intro i hi
  have hi := List.mem_range.mp hi
  by_cases hk0 : k = 0
  · subst hk0
    have hm1 : m1 = Memory.make (some ⟨data, 0, nc⟩) b := by
      simp only [Memory.calls] at e1
      injection e1 with e1
      injection e1 with _ h
      exact h.symm
    have hpf : pendingFrames b 0 = 0 := by simp [pendingFrames]
    rw [hpf, if_neg (Nat.not_lt_zero _), Nat.sub_zero, hm1]
    have hfs : future ((Memory.make (some ⟨data, 0, nc⟩) b).seek t) = data.drop t := by
      simp [future, Memory.seek, Reader.seek, Memory.make]
    rw [hfs, at0_drop]
    unfold at0
    rw [Nat.add_assoc]
  · have hA := at_calls data nc b hnc hb h32 k (by omega) hk _ m1 e1
    have hmod : (k - 1) % b < b := Nat.mod_lt _ hb
    have hk1 : b * ((k - 1) / b) + (k - 1) % b = k - 1 := Nat.div_add_mod _ _
    have hpf : pendingFrames b k = b - 1 - (k - 1) % b := by
      unfold pendingFrames
      set q := (k - 1) % b
      set d := (k - 1) / b
      rcases (by omega : q + 1 = b ∨ q + 1 < b) with hc | hc
      · have e : k = (d + 1) * b := by
          have : (d + 1) * b = b * d + b := by ring
          omega
        have e3 : k % b = 0 := by rw [e]; exact Nat.mul_mod_left _ _
        rw [e3, Nat.sub_zero, Nat.mod_self]; omega
      · have e : k = q + 1 + b * d := by omega
        have e3 : k % b = q + 1 := by
          rw [e, Nat.add_mul_mod_self_left, Nat.mod_eq_of_lt hc]
        rw [e3, Nat.mod_eq_of_lt (by omega)]; omega
    set P := pendingFrames b k with hP
    have hplen : (m1.buff.drop ((k - 1) % b * nc + nc)).length = P * nc := by
      rw [List.length_drop, hA.len, hpf, Nat.sub_mul, Nat.sub_mul]
      omega
    have hf1 : future m1 = m1.buff.drop ((k - 1) % b * nc + nc) ++ data.drop (min (((k - 1) / b + 1) * (b * nc)) data.length) := by
      unfold future
      rw [hA.wav]
      simp only [hA.first, hA.pos, if_true, Option.getD_some]
    have hf2 : future (m1.seek t) = m1.buff.drop ((k - 1) % b * nc + nc) ++ data.drop t := by
      unfold future Memory.seek Reader.seek
      rw [hA.wav]
      simp only [Option.map_some, hA.first, hA.pos, if_true, Option.getD_some]
    rw [hf2]
    by_cases hj : j < P
    · rw [if_pos hj]
      have hlt : j * nc + i < P * nc := by
        have : (j + 1) * nc ≤ P * nc := Nat.mul_le_mul_right _ hj
        have : (j + 1) * nc = j * nc + nc := by ring
        omega
      have h1 := f1 (j * nc + i)
      rw [hf1, at0_append_left _ _ _ (by omega)] at h1
      rw [at0_append_left _ _ _ (by omega), h1]
      unfold at0
      congr 2
      ring
    · rw [if_neg hj]
      have hle : P * nc ≤ j * nc := Nat.mul_le_mul_right _ (by omega)
      rw [at0_append_right _ _ _ (by omega), hplen, at0_drop]
      unfold at0
      congr 2
      rw [Nat.sub_mul]
      omega

/-- **C63.** At a buffer boundary `restart()` begins again at frame 0. -/
theorem C63_restart_partial {α : Type} [Zero α] (data : List α) (nc b : Nat) (hnc : 0 < nc) (hb : 0 < b) (h32 : b * nc < 2 ^ 32)
    (c n : Nat) (hk : (c * b - 1) / b * (b * nc) < data.length) :
    ∃ fs m', (Memory.make (some ⟨data, 0, nc⟩) b).calls (c * b) = .ok (fs, m') ∧
      ∃ m'', m'.restart.calls n =
        .ok ((List.range n).map (fun j => (List.range nc).map (fun i => (data[j * nc + i]?).getD 0)), m'') := by
  obtain ⟨fs, m', e, m'', e'⟩ := C63_seek data nc b hnc hb h32 (c * b) 0 (Nat.zero_le _) hk n
  have hpf : pendingFrames b (c * b) = 0 := by simp [pendingFrames]
  refine ⟨fs, m', e, m'', ?_⟩
  rw [hpf] at e'
  simp only [Nat.not_lt_zero, if_false, Nat.sub_zero, Nat.zero_add] at e'
  exact e'

/-- **C63.** Elsewhere it does not: after one call on the file `1 2 3 4 5 6` with a buffer of four frames, `restart()` is
followed by frames 2, 3, 4, and only then by frame 1. -/
theorem C63_restart_counterexample :
    ∃ fs m', (Memory.make (some ⟨[1, 2, 3, 4, 5, 6], 0, 1⟩) 4 : Memory Nat).calls 1 = .ok (fs, m') ∧
      ∃ m'', m'.restart.calls 4 = .ok ([[2], [3], [4], [1]], m'') := by
  exact ⟨_, _, rfl, _, rfl⟩

/-- **C63.** The constructor taking a `std::string` ignores the buffer size. -/
theorem C63_string_constructor {α : Type} [Zero α] (data : List α) (nc b : Nat) :
    (Memory.makeString (some ⟨data, 0, nc⟩) b).buff.length = 1024 * nc := by
  simp [Memory.makeString, Memory.make]

/-- **C63.** For a file that could not be opened, a call dereferences the end of an empty vector, whatever the buffer size. -/
theorem C63_unopened {α : Type} [Zero α] (b : Nat) : (Memory.make (none : Option (Reader α)) b).call = .error .oobRead := rfl

/-- A concrete stereo file with an odd number of frames and a buffer of two frames, past the end. -/
example : ∃ m', (Memory.make (some ⟨[1, 2, 3, 4, 5, 6], 0, 2⟩) 2 : Memory Nat).calls 5 =
    .ok ([[1, 2], [3, 4], [5, 6], [0, 0], [0, 0]], m') := ⟨_, rfl⟩

/-! ## After the end of the file -/

namespace Wav
variable {α : Type} [Zero α]

/-- The state after a read that delivered nothing: a buffer of one frame. -/
structure Ended (data : List α) (nc : Nat) (m : Memory α) : Prop where
  first : m.first_read = true
  pos : m.pos = some 0
  len : m.buff.length = nc
  wav : m.wav = some ⟨data, data.length, nc⟩

theorem refill_end (data : List α) (nc : Nat) (buff : List α) :
    refill (⟨data, data.length, nc⟩ : Reader α) buff = (List.replicate nc 0, ⟨data, data.length, nc⟩) := by
  unfold refill Reader.read
  simp only [List.drop_length, List.take_nil, List.length_nil, if_true]
  rw [Nat.min_eq_right (Nat.le_add_right _ _)]

theorem frameAt_zeros (nc : Nat) (hnc : 0 < nc) : frameAt (List.replicate nc (0 : α)) 0 nc = .ok (List.replicate nc 0) := by
  unfold frameAt
  rw [if_pos ⟨by simp, by simpa using hnc⟩]
  simp

/-- Calling when nothing is pending and the file has been read to its end. -/
theorem call_end (data : List α) (nc : Nat) (hnc : 0 < nc) (m : Memory α) (hw : m.wav = some ⟨data, data.length, nc⟩)
    (hpend : m.first_read = true → ∃ p, m.pos = some p ∧ m.buff.length ≤ p + nc) :
    ∃ f m', m.call = .ok (f, m') ∧ Ended data nc m' := by
  unfold Memory.call
  rw [hw]
  simp only
  cases hf : m.first_read with
  | false =>
    simp only [if_true]
    rw [refill_end]
    simp only [frameAt_zeros nc hnc]
    exact ⟨_, _, rfl, rfl, rfl, by simp, rfl⟩
  | true =>
    obtain ⟨p, hp, hl⟩ := hpend hf
    rw [hp]
    simp only
    rw [if_pos (by simpa using hl), refill_end]
    simp only [frameAt_zeros nc hnc]
    exact ⟨_, _, rfl, rfl, rfl, by simp, rfl⟩

theorem ended_step (data : List α) (nc : Nat) (hnc : 0 < nc) (m : Memory α) (hm : Ended data nc m) (f : List α) (m' : Memory α)
    (h : m.call = .ok (f, m')) : Ended data nc m' := by
  obtain ⟨f2, m2, e, he⟩ := call_end data nc hnc m hm.wav (fun _ => ⟨0, hm.pos, by rw [hm.len]; omega⟩)
  rw [e] at h
  injection h with h
  injection h with h1 h2
  rw [← h2]; exact he

/-- From the last frame of the file to the end. -/
theorem at_to_ended (data : List α) (nc b k : Nat) (hnc : 0 < nc) (hb : 0 < b) (hk : 1 ≤ k) (hd1 : (k - 1) / b * (b * nc) < data.length)
    (hd2 : data.length ≤ k / b * (b * nc)) (m : Memory α) (hm : At data nc b k m)
    (f : List α) (m' : Memory α) (h : m.call = .ok (f, m')) : Ended data nc m' := by
  have hmod : (k - 1) % b < b := Nat.mod_lt _ hb
  have hk1 : b * ((k - 1) / b) + (k - 1) % b = k - 1 := Nat.div_add_mod _ _
  obtain ⟨h1, h2, h3, h4⟩ := hm
  set q := (k - 1) % b with hq
  set d := (k - 1) / b with hdd
  have hqb : q + 1 = b := by
    by_contra hc
    have e1 : k = q + 1 + b * d := by omega
    have e2 : k / b = d := by
      rw [e1, Nat.add_mul_div_left _ _ hb, Nat.div_eq_of_lt (by omega), Nat.zero_add]
    rw [e2] at hd2
    omega
  have e1 : k = (d + 1) * b := by
    have : (d + 1) * b = b * d + b := by ring
    omega
  have e2 : k / b = d + 1 := by rw [e1]; exact Nat.mul_div_cancel _ hb
  rw [e2] at hd2
  rw [Nat.min_eq_right hd2] at h4
  have e4 : q * nc + nc = b * nc := by rw [← hqb]; ring
  obtain ⟨f2, m2, e, he⟩ := call_end data nc hnc m h4 (fun _ => ⟨q * nc, h2, by rw [h3]; omega⟩)
  rw [e] at h
  injection h with h
  injection h with h5 h6
  rw [← h6]; exact he

theorem ended_calls (data : List α) (nc b : Nat) (hnc : 0 < nc) (hb : 0 < b) (h32 : b * nc < 2 ^ 32) : ∀ k, 1 ≤ k →
    data.length ≤ (k - 1) / b * (b * nc) → ∀ fs m', (Memory.make (some ⟨data, 0, nc⟩) b).calls k = .ok (fs, m') → Ended data nc m'
  | 0, h, _, _, _, _ => absurd h (by norm_num)
  | 1, _, hd, fs, m', h => by
    have hnil : data = [] := List.eq_nil_of_length_eq_zero (by simpa using hd)
    subst hnil
    obtain ⟨f, m2, e, he⟩ := call_end ([] : List α) nc hnc (Memory.make (some ⟨[], 0, nc⟩) b) rfl (fun h => absurd h (by simp [Memory.make]))
    simp only [Memory.calls] at h
    rw [e] at h
    simp only at h
    injection h with h
    injection h with h5 h6
    rw [← h6]; exact he
  | k + 2, _, hd, fs, m', h => by
    rw [Memory.calls] at h
    cases hc : (Memory.make (some ⟨data, 0, nc⟩) b).calls (k + 1) with
    | error e => rw [hc] at h; cases h
    | ok fm =>
      obtain ⟨fs1, m1⟩ := fm
      rw [hc] at h
      simp only at h
      cases hc2 : m1.call with
      | error e => rw [hc2] at h; cases h
      | ok fm2 =>
        obtain ⟨f, m2⟩ := fm2
        rw [hc2] at h
        simp only at h
        injection h with h
        injection h with h5 h6
        subst h6
        rcases Nat.lt_or_ge ((k + 1 - 1) / b * (b * nc)) data.length with hlt | hge
        · have hA := at_calls data nc b hnc hb h32 (k + 1) (by omega) hlt fs1 m1 hc
          exact at_to_ended data nc b (k + 1) hnc hb (by omega) hlt hd m1 hA f m2 hc2
        · have hE := ended_calls data nc b hnc hb h32 (k + 1) (by omega) hge fs1 m1 hc
          exact ended_step data nc hnc m1 hE f m2 hc2

end Wav

/-- **C63.** Once the file has been played to its end (a call has found nothing more to read), `seek(t)` and `restart()` take effect at once, at every call count, and from
then on for ever. -/
theorem C63_seek_after_end {α : Type} [Zero α] (data : List α) (nc b : Nat) (hnc : 0 < nc) (hb : 0 < b) (h32 : b * nc < 2 ^ 32)
    (k t : Nat) (ht : t ≤ data.length) (hk1 : 1 ≤ k) (hk : data.length ≤ (k - 1) / b * (b * nc)) (n : Nat) :
    ∃ fs m', (Memory.make (some ⟨data, 0, nc⟩) b).calls k = .ok (fs, m') ∧
      ∃ m'', (m'.seek t).calls n = .ok ((List.range n).map (fun j => (List.range nc).map (fun i => (data[t + (j * nc + i)]?).getD 0)), m'') := by
  obtain ⟨m1, e1, i1, f1⟩ := calls_spec data nc _ (inv_make data nc b hnc hb h32) k
  refine ⟨_, m1, e1, ?_⟩
  have hE := ended_calls data nc b hnc hb h32 k hk1 hk _ m1 e1
  obtain ⟨_, hbf, hps, p, hw, hp⟩ := i1
  have hinv : Inv data nc (m1.seek t) :=
    ⟨hnc, hbf, hps, t, by unfold Memory.seek Reader.seek; simp only [hw, Option.map_some], ht⟩
  obtain ⟨m2, e2, _, _⟩ := calls_spec data nc _ hinv n
  refine ⟨m2, ?_⟩
  rw [e2]
  have hf : future (m1.seek t) = data.drop t := by
    unfold future Memory.seek Reader.seek
    rw [hE.wav]
    simp only [Option.map_some, hE.first, hE.pos, if_true, Option.getD_some]
    rw [List.drop_eq_nil_of_le (by rw [hE.len]; omega), List.nil_append]
  rw [hf]
  congr 2
  apply List.map_congr_left
  intro j _
  apply List.map_congr_left
  intro i _
  rw [at0_drop]
  rfl

/-- A stereo file of three frames and a buffer of two frames, restarted in its sixth call. -/
example : ∃ fs m', (Memory.make (some ⟨[1, 2, 3, 4, 5, 6], 0, 2⟩) 2 : Memory Nat).calls 6 = .ok (fs, m') ∧
    ∃ m'', m'.restart.calls 2 = .ok ([[1, 2], [3, 4]], m'') := ⟨_, _, rfl, _, rfl⟩

end Verif
