import Verif.Model.WavConvert
import Verif.Props.WavOpen
import Verif.Props.WavPcm
/-!
# C94: A-law, mu-law and 64-bit floating-point samples
-/
namespace Verif
open DrWav Rounding WavSpec

namespace G711

/-- ITU-T G.711, A-law: every other bit of a code is inverted; then a sign (1: positive), a segment of three bits and a position in it of four bits. The value,
on a scale of 16 bits: segments 0 and 1 have steps of 16, each further segment has steps twice as large, and the value is the middle of the
step. -/
def alaw (c : Nat) : Int :=
  let x := c ^^^ 0x55
  let seg := x / 16 % 8
  let pos := x % 16
  let mag : Nat := if seg = 0 then 16 * pos + 8 else (16 * pos + 256 + 8) * 2 ^ (seg - 1)
  if 128 ≤ x then mag else -mag

/-- ITU-T G.711, mu-law: all bits of a code are inverted; then a sign (1: negative), a segment and a position in it. The value, on a scale of 16 bits: the steps of
segment 0 are 8, those of each further segment twice as large; 132 (the bias) is subtracted. -/
def mulaw (c : Nat) : Int :=
  let x := 255 - c
  let seg := x / 16 % 8
  let pos := x % 16
  let mag : Nat := (8 * pos + 132) * 2 ^ seg - 132
  if 128 ≤ x then -mag else mag

end G711

namespace DrWav

theorem alaw_table : ∀ c : Fin 256, signed 2 (alawTable.getD c.val 0) = G711.alaw c.val := by decide +kernel

theorem mulaw_table : ∀ c : Fin 256, signed 2 (mulawTable.getD c.val 0) = G711.mulaw c.val := by decide +kernel

theorem s16_exact {x : Int} (h : -32768 ≤ x) (h' : x ≤ 32767) : fl32 ((x : ℚ) / 32768) = x / 32768 := by
  apply (fl32_lawful).fix
  have := rep_scaled (p := 24) (emin := -149) (m := x) 15 (by rw [abs_le]; norm_num; omega) (by norm_num)
  norm_num at this ⊢
  exact this

theorem alaw_bounds : ∀ c : Fin 256, -32256 ≤ G711.alaw c.val ∧ G711.alaw c.val ≤ 32256 ∧ 8 ≤ |G711.alaw c.val| := by decide +kernel

theorem mulaw_bounds : ∀ c : Fin 256, -32124 ≤ G711.mulaw c.val ∧ G711.mulaw c.val ≤ 32124 := by decide +kernel

end DrWav

/-- **C94.** A-law samples are decoded as ITU-T G.711 says, exactly. -/
theorem C94_alaw (b : Byte) : alawToF32 b = G711.alaw b.toNat / 32768 := by
  have h := alaw_table ⟨b.toNat, b.isLt⟩
  have hb := alaw_bounds ⟨b.toNat, b.isLt⟩
  simp only at h hb
  unfold alawToF32 alawToS16
  rw [h, s16_exact (by omega) (by omega)]

/-- **C94.** mu-law samples are decoded as ITU-T G.711 says, exactly. -/
theorem C94_mulaw (b : Byte) : mulawToF32 b = G711.mulaw b.toNat / 32768 := by
  have h := mulaw_table ⟨b.toNat, b.isLt⟩
  have hb := mulaw_bounds ⟨b.toNat, b.isLt⟩
  simp only at h hb
  unfold mulawToF32 mulawToS16
  rw [h, s16_exact (by omega) (by omega)]

/-- **C94.** The samples are between -1 and 1; A-law has no silence: every sample is at least `1/4096` in magnitude. -/
theorem C94_range (b : Byte) : |alawToF32 b| < 1 ∧ |mulawToF32 b| < 1 ∧ 1 / 4096 ≤ |alawToF32 b| := by
  rw [C94_alaw, C94_mulaw]
  have hb := alaw_bounds ⟨b.toNat, b.isLt⟩
  have hc := mulaw_bounds ⟨b.toNat, b.isLt⟩
  simp only at hb hc
  generalize G711.alaw b.toNat = x at *
  generalize G711.mulaw b.toNat = y at *
  have h3 : (8 : ℚ) ≤ |(x : ℚ)| := by exact_mod_cast hb.2.2
  have h1 : |(x : ℚ)| ≤ 32256 := by rw [← Int.cast_abs]; exact_mod_cast abs_le.2 ⟨hb.1, hb.2.1⟩
  have h2 : |(y : ℚ)| ≤ 32124 := by rw [← Int.cast_abs]; exact_mod_cast abs_le.2 ⟨hc.1, hc.2⟩
  rw [abs_div, abs_div, abs_of_pos (by norm_num : (0 : ℚ) < 32768)]
  refine ⟨?_, ?_, ?_⟩
  · rw [div_lt_one (by norm_num)]; linarith
  · rw [div_lt_one (by norm_num)]; linarith
  · rw [le_div_iff₀ (by norm_num)]; linarith

/-- **C94.** A file of A-law or mu-law samples of one byte delivers, in any sequence of reads, each byte of its data chunk as one sample, in order. -/
theorem C94_reads (bytes : List Byte) (w : Wav) (e : init bytes = some w) (ht : w.tag = 6 ∨ w.tag = 7) (hb : w.bps = 1)
    (data : List Byte) (hd : DataChunk bytes w data) (ns : List (BitVec 32)) :
    readMany w ns = some (slices (data.map fun b => [b]) ns) := by
  rw [C92_reads bytes w e (Or.inr (Or.inr ⟨ht, hb⟩)) (by omega) data hd ns, hb]
  congr 2
  clear hd
  induction data with
  | nil => simp [samplesOf]
  | cons x t ih => rw [samplesOf, if_pos ⟨by omega, by simp⟩]; simp [ih]

/-- **C94.** In a file of A-law or mu-law samples with more than one byte per sample the samples are taken from consecutive bytes instead of one byte of each sample: the first read of `n` samples
(that fit in the buffer of 4096 bytes) delivers the first `n` bytes of the data chunk, and skips the other `n * (bps - 1)` bytes. -/
theorem C94_wide_violation (bytes : List Byte) (w : Wav) (e : init bytes = some w) (ht : w.tag = 6 ∨ w.tag = 7) (data : List Byte)
    (hd : DataChunk bytes w data) (n : BitVec 32) (hn : n.toNat * w.bps ≤ 4096) (hd' : n.toNat * w.bps ≤ data.length) :
    ∃ w', readerRead w n = some ((data.take n.toNat).map fun b => [b], w') ∧ w'.file.pos = w.file.pos + n.toNat * w.bps := by
  have hc : compressed w.tag = false := by rcases ht with h | h <;> simp [compressed, h]
  obtain ⟨-, -, -, -, -, -, -, h8, -⟩ := init_spec e
  obtain ⟨i1, -⟩ := h8 hc
  have hch := chunk_of_dataChunk hd
  unfold readerRead readF32
  by_cases h0 : n.toNat = 0
  · rw [if_pos h0]
    exact ⟨w, by simp [h0], by simp [h0]⟩
  rw [if_neg h0, if_neg (by omega), if_neg (by omega), if_pos ht, if_neg (by omega)]
  have hq : n.toNat ≤ 4096 / w.bps := (Nat.le_div_iff_mul_le i1).2 hn
  have hk : n.toNat ≤ data.length / w.bps := (Nat.le_div_iff_mul_le i1).2 hd'
  refine ⟨advance w (n.toNat * w.bps), ?_, rfl⟩
  rw [readLoop, if_neg h0, Nat.min_eq_left hq]
  simp only
  rw [read_eq w _ h0 i1 hc, hch]
  simp only
  rw [Nat.min_eq_left hk, dif_neg h0, Nat.min_eq_left hd', readLoop, if_pos (by omega)]
  simp only [List.append_nil, Option.some.injEq, Prod.mk.injEq, and_true]
  rw [groups_take (Nat.mul_le_mul_left _ i1)]
  have hl : n.toNat ≤ data.length := le_trans (Nat.le_mul_of_pos_right _ i1) hd'
  clear hd hd' hn hch hq hk h0
  generalize n.toNat = k at *
  induction k generalizing data with
  | zero => simp [groups]
  | succ k ih =>
    cases data with
    | nil => simp at hl
    | cons x t => simp only [groups, List.take_succ_cons, List.map_cons]; rw [← ih t (by simpa using hl)]; simp

/-- **C94.** Samples of 32-bit floating point are delivered unchanged: a `double` with the same number in it, in another file, is delivered as the same sample. -/
theorem C94_float (b : List Byte) (hb : b.length = 4) (x : ℚ) (hx : f32Value (leNat b) = some x) :
    ieeeToF32 b = some x ∧ Rep 24 (-149) x ∧ ∀ a : List Byte, a.length = 8 → f64Value (leNat a) = some x → ieeeToF32 a = some x := by
  have hr : Rep 24 (-149) x := by
    unfold f32Value at hx
    simp only at hx
    have hs : ∃ s : ℤ, |s| = 1 ∧ (if leNat b / 2 ^ 31 % 2 = 1 then (-1 : ℚ) else 1) = s := by
      split
      · exact ⟨-1, by norm_num, by norm_num⟩
      · exact ⟨1, by norm_num, by norm_num⟩
    obtain ⟨s, hs1, hs2⟩ := hs
    rw [hs2] at hx
    have hm : leNat b % 2 ^ 23 < 2 ^ 23 := Nat.mod_lt _ (by norm_num)
    generalize leNat b % 2 ^ 23 = m at hx hm
    generalize leNat b / 2 ^ 23 % 2 ^ 8 = e at hx
    split at hx
    · exact absurd hx (by simp)
    split at hx
    · rw [← Option.some.inj hx]
      refine ⟨s * m, -149, ?_, by norm_num, by push_cast; ring⟩
      rw [abs_mul, hs1, one_mul, Nat.abs_cast]
      exact_mod_cast (by omega : m ≤ 2 ^ 24)
    · rw [← Option.some.inj hx]
      refine ⟨s * ((2 ^ 23 + m : ℕ) : ℤ), (e : ℤ) - 150, ?_, by omega, by push_cast; ring⟩
      rw [abs_mul, hs1, one_mul, Nat.abs_cast]
      exact_mod_cast (by omega : 2 ^ 23 + m ≤ 2 ^ 24)
  refine ⟨by unfold ieeeToF32; rw [if_pos hb, hx], hr, fun a ha hy => ?_⟩
  unfold ieeeToF32
  rw [if_neg (by omega), if_pos ha, hy, Option.map_some, fl32_lawful.fix x hr]

/-- **C94.** Samples of 64-bit floating point are delivered as the nearest `float`; those that are `float` values, exactly; and the conversion is monotone. -/
theorem C94_double (b : List Byte) (hb : b.length = 8) (x : ℚ) (hx : f64Value (leNat b) = some x) :
    ∃ r, ieeeToF32 b = some r ∧ Rep 24 (-149) r ∧ (∀ y, Rep 24 (-149) y → |r - x| ≤ |y - x|) ∧ (Rep 24 (-149) x → r = x) ∧
      ∀ a y s, a.length = 8 → f64Value (leNat a) = some y → ieeeToF32 a = some s → x ≤ y → r ≤ s := by
  refine ⟨fl32 x, ?_, fl32_lawful.rep _, fun y hy => fl32_lawful.nearest x y hy, fun h => fl32_lawful.fix x h, ?_⟩
  · unfold ieeeToF32; rw [if_neg (by omega), if_pos hb, hx]; rfl
  · intro a y s ha hy hs hxy
    unfold ieeeToF32 at hs
    rw [if_neg (by omega), if_pos ha, hy] at hs
    rw [← Option.some.inj hs]
    exact fl32_lawful.mono _ _ hxy

/-- **C94.** A file of floating-point samples of other sizes than 32 and 64 bits, and a file of an unknown format, can be opened; the former delivers silence, the latter no samples at all. -/
theorem C94_unsupported (b : List Byte) (hb : b.length ≠ 8) (hb' : b.length ≠ 4) (w : Wav) (h1 : w.tag ≠ 1) (h2 : w.tag ≠ 2) (h3 : w.tag ≠ 3) (h6 : w.tag ≠ 6) (h7 : w.tag ≠ 7)
    (h11 : w.tag ≠ 0x11) (n : BitVec 32) : ieeeToF32 b = some 0 ∧ readerRead w n = some ([], w) := by
  refine ⟨by unfold ieeeToF32; rw [if_neg hb', if_neg hb], ?_⟩
  unfold readerRead readF32
  split
  · rfl
  rw [if_neg (by omega), if_neg (by omega), if_neg (by omega), if_neg]
  simp [compressed, h2, h11]

/-- A stereo mu-law file: four samples, read in two steps. -/
example : ∃ w, init (wavWith [] [⟨fourcc "fact", [2, 0, 0, 0]⟩] 7 2 8000 0 2 8 100 [0, 255, 128, 127] []) = some w ∧
    readMany w [3, 3] = some [[[0], [255], [128]], [[127]]] ∧ mulawToF32 0 = -32124 / 32768 ∧ mulawToF32 255 = 0 ∧ alawToF32 0xD5 = 8 / 32768 := by
  obtain ⟨w, e, h1, h2, h3, h4, h5, h6⟩ := C92_chunks [] [⟨fourcc "fact", [2, 0, 0, 0]⟩] 7 2 8000 0 2 8 100 [0, 255, 128, 127] [] (by decide) (by decide) (by decide)
    (by decide) (by decide) (by decide) (by decide) (by decide) (by decide) (by decide) (by decide) (by decide) (by decide) (by decide) (by decide) (by decide)
  refine ⟨w, e, ?_, ?_, ?_, ?_⟩
  · rw [C94_reads _ w e (by rw [h1]; decide) (by rw [h4]) _ h6]; decide
  · rw [C94_mulaw, show G711.mulaw (BitVec.toNat (0 : Byte)) = -32124 by decide]; norm_num
  · rw [C94_mulaw, show G711.mulaw (BitVec.toNat (255 : Byte)) = 0 by decide]; norm_num
  · rw [C94_alaw, show G711.alaw (BitVec.toNat (0xD5 : Byte)) = 8 by decide]; norm_num

/-- 16-bit "A-law": the first two samples are the two bytes of the first sample. -/
example : ∃ w w', init (wavWith [] [] 6 1 8000 0 2 16 100 [1, 2, 3, 4] []) = some w ∧ readerRead w 2 = some ([[1], [2]], w') := by
  obtain ⟨w, e, h1, h2, h3, h4, h5, h6⟩ := C92_chunks [] [] 6 1 8000 0 2 16 100 [1, 2, 3, 4] [] (by decide) (by decide) (by decide)
    (by decide) (by decide) (by decide) (by decide) (by decide) (by decide) (by decide) (by decide) (by decide) (by decide) (by decide) (by decide) (by decide)
  obtain ⟨w', e', -⟩ := C94_wide_violation _ w e (by rw [h1]; decide) _ h6 2 (by rw [h4]; decide) (by rw [h4]; decide)
  exact ⟨w, w', e, e'⟩

/-- `-1.5` as a `float`. -/
example : f32Value (leNat [0, 0, 0xC0, 0xBF]) = some (-3 / 2) := by
  have e : leNat [0, 0, 0xC0, 0xBF] = 3217031168 := by decide
  rw [e]; unfold f32Value; norm_num

/-- `-1.5` as a `double`. -/
example : f64Value (leNat [0, 0, 0, 0, 0, 0, 0xF8, 0xBF]) = some (-3 / 2) ∧ ieeeToF32 [0, 0, 0, 0, 0, 0, 0xF8, 0xBF] = some (-3 / 2) := by
  have e : leNat [0, 0, 0, 0, 0, 0, 0xF8, 0xBF] = 13832806255468478464 := by decide
  have h : f64Value (leNat [0, 0, 0, 0, 0, 0, 0xF8, 0xBF]) = some (-3 / 2) := by
    rw [e]; unfold f64Value; norm_num
  refine ⟨h, ?_⟩
  obtain ⟨r, h1, -, -, h2, -⟩ := C94_double _ rfl _ h
  rw [h1, h2 ⟨-3, -1, by norm_num, by norm_num, by norm_num⟩]

end Verif
