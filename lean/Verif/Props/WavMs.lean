import Verif.Props.WavImaFile
/-!
# C96: Microsoft ADPCM
-/
namespace Verif
open DrWav WavSpec AdSpec

/-! ## Specification -/

namespace MsSpec

/-- The coefficients of the seven predictors, in 1/256: of the last sample and of the one before. -/
def coeff : Nat → Int × Int
  | 0 => (256, 0)
  | 1 => (512, -256)
  | 2 => (0, 0)
  | 3 => (192, 64)
  | 4 => (240, 0)
  | 5 => (460, -208)
  | _ => (392, -232)

/-- A code as a signed number of four bits. -/
def signedCode (n : Nat) : Int := if n < 8 then n else n - 16

/-- The factor of the step after each code, in 1/256. It depends on the magnitude. -/
def adapt (n : Nat) : Int := [230, 230, 230, 230, 307, 409, 512, 614, 768].getD (signedCode n).natAbs 0

/-- One code: the prediction plus the code times the step, clamped to 16 bits; the step is scaled but at least 16. -/
def next (s : MsCh) (n : Nat) : MsCh :=
  let c := coeff s.predictor
  ⟨s.predictor, max 16 (adapt n * s.delta / 256), s.new, max (-32768) (min 32767 ((c.1 * s.new + c.2 * s.old) / 256 + signedCode n * s.delta))⟩

/-- The samples of a sequence of codes. -/
def samples : MsCh → List Nat → List Int
  | _, [] => []
  | s, n :: ns => (next s n).new :: samples (next s n) ns

/-- The predictor exists and the step stays small enough: 768 times the step is a 32-bit number. -/
def Fits : MsCh → List Nat → Prop
  | _, [] => True
  | s, n :: ns => s.predictor < 7 ∧ 768 * s.delta < 2 ^ 31 ∧ Fits (next s n) ns

/-- The beginning of a mono block, of 7 bytes: predictor, step, second sample, first sample. -/
def start (b : List Byte) : MsCh := ⟨(b.getD 0 0).toNat, int16 b 1, int16 b 5, int16 b 3⟩

/-- The beginning of a stereo block, of 14 bytes: the same, left and right alternately. -/
def startLeft (b : List Byte) : MsCh := ⟨(b.getD 0 0).toNat, int16 b 2, int16 b 10, int16 b 6⟩
def startRight (b : List Byte) : MsCh := ⟨(b.getD 1 0).toNat, int16 b 4, int16 b 12, int16 b 8⟩

/-- The codes in bytes. -/
def high (b : List Byte) : List Nat := b.map fun x => x.toNat / 16
def low (b : List Byte) : List Nat := b.map fun x => x.toNat % 16
def both (b : List Byte) : List Nat := b.flatMap fun x => [x.toNat / 16, x.toNat % 16]

/-- A block of a mono file: two samples, then codes, the high half of each byte first. -/
def mono (b : List Byte) : List Int := (start b).old :: (start b).new :: samples (start b) (both (b.drop 7))

/-- A block of a stereo file: the high halves of the bytes are codes of the left channel, the low halves of the right one. -/
def stereo (b : List Byte) : List Int :=
  interleave ((startLeft b).old :: (startLeft b).new :: samples (startLeft b) (high (b.drop 14)))
    ((startRight b).old :: (startRight b).new :: samples (startRight b) (low (b.drop 14)))

/-- The samples of the complete blocks of a data chunk. -/
def decode (channels align : Nat) (data : List Byte) : List Int := (samplesOf align data).flatMap (if channels = 1 then mono else stereo)

/-- What is left of a data chunk after its complete blocks. -/
def rest (align : Nat) (data : List Byte) : List Byte := data.drop (data.length / align * align)

/-- The samples of a data chunk: of the complete blocks, and, when the chunk ends inside a block, of the part of it that is there. -/
def decodeAll (channels align : Nat) (data : List Byte) : List Int :=
  decode channels align data ++ if 7 * channels ≤ (rest align data).length then (if channels = 1 then mono else stereo) (rest align data) else []

/-- A block that can be decoded. -/
def ValidBlock (channels : Nat) (b : List Byte) : Prop :=
  if channels = 1 then Fits (start b) (both (b.drop 7)) else Fits (startLeft b) (high (b.drop 14)) ∧ Fits (startRight b) (low (b.drop 14))

/-- Samples per block. -/
def perBlock (channels align : Nat) : Nat := 2 * (align - 6 * channels)

end MsSpec

open MsSpec

namespace DrWav

/-- States from which decoding cannot go wrong. -/
def MsCh.Ok (s : MsCh) : Prop := s.predictor < 7 ∧ 768 * s.delta < 2147483648 ∧ -32768 ≤ s.delta ∧ (-32768 ≤ s.old ∧ s.old ≤ 32767) ∧ (-32768 ≤ s.new ∧ s.new ≤ 32767)

instance (s : MsCh) : Decidable s.Ok := by unfold MsCh.Ok; infer_instance

theorem ms_coeff1 : ∀ i : Fin 7, readAt msCoeff1 i.val = .ok (coeff i.val).1 := by decide
theorem ms_coeff2 : ∀ i : Fin 7, readAt msCoeff2 i.val = .ok (coeff i.val).2 := by decide
theorem ms_coeff_bound : ∀ i : Fin 7, 0 ≤ (coeff i.val).1 ∧ (coeff i.val).1 ≤ 512 ∧ -256 ≤ (coeff i.val).2 ∧ (coeff i.val).2 ≤ 64 := by decide
theorem ms_adapt : ∀ n : Fin 16, readAt msAdapt n.val = .ok (adapt n.val) := by decide
theorem ms_adapt_bound : ∀ n : Fin 16, 0 ≤ adapt n.val ∧ adapt n.val ≤ 768 := by decide
theorem ms_code : ∀ n : Fin 16, (if 8 ≤ n.val then (n.val : Int) - 16 else n.val) = signedCode n.val ∧ -8 ≤ signedCode n.val ∧ signedCode n.val ≤ 7 := by decide

theorem int32_ok {x : Int} (h : -2147483648 ≤ x ∧ x ≤ 2147483647) : int32 x = .ok x := if_pos h

theorem mul_bounds {a b A B : Int} (ha : |a| ≤ A) (hb : |b| ≤ B) : -(A * B) ≤ a * b ∧ a * b ≤ A * B := by
  rw [← abs_le, abs_mul]
  exact mul_le_mul ha hb (abs_nonneg _) (le_trans (abs_nonneg _) ha)

theorem msNibble_eq {s : MsCh} (h : s.Ok) {n : Nat} (hn : n < 16) : msNibble s n = .ok (next s n) := by
  obtain ⟨h1, h2, h3, ⟨h4, h5⟩, h6, h7⟩ := h
  have c1 := ms_coeff1 ⟨s.predictor, h1⟩
  have c2 := ms_coeff2 ⟨s.predictor, h1⟩
  have cb := ms_coeff_bound ⟨s.predictor, h1⟩
  have ad := ms_adapt ⟨n, hn⟩
  have ab := ms_adapt_bound ⟨n, hn⟩
  obtain ⟨e1, e2, e3⟩ := ms_code ⟨n, hn⟩
  simp only at c1 c2 cb ad ab e1 e2 e3
  unfold msNibble
  rw [c1, c2, ad, e1]
  unfold next
  simp only
  generalize (coeff s.predictor).1 = k1 at *
  generalize (coeff s.predictor).2 = k2 at *
  generalize adapt n = k at *
  generalize signedCode n = q at *
  obtain ⟨pr, delta, old, new⟩ := s
  simp only at *
  have m1 := mul_bounds (a := new) (b := k1) (A := 32768) (B := 512) (abs_le.2 (by omega)) (abs_le.2 (by omega))
  have m2 := mul_bounds (a := old) (b := k2) (A := 32768) (B := 256) (abs_le.2 (by omega)) (abs_le.2 (by omega))
  have m3 := mul_bounds (a := q) (b := delta) (A := 8) (B := 2796202) (abs_le.2 (by omega)) (abs_le.2 (by omega))
  have m4 : -2147483648 ≤ k * delta ∧ k * delta ≤ 2147483647 := by
    constructor
    · nlinarith
    · rcases le_total delta 0 with h | h <;> nlinarith
  rw [Int.mul_comm k1 new, Int.mul_comm k2 old]
  simp only [bind, Except.bind]
  rw [int32_ok (by omega)]
  simp only
  rw [int32_ok (by omega)]
  simp only
  rw [int32_ok (by omega)]
  simp only
  rw [int32_ok (by omega)]
  simp only
  rw [int32_ok (by omega)]
  simp only
  rw [int32_ok m4]
  rfl

theorem ms_next_ok {s : MsCh} (h : s.Ok) (n : Nat) (hd : 768 * (next s n).delta < 2147483648) : (next s n).Ok := by
  obtain ⟨h1, h2, h3, h4, h5⟩ := h
  refine ⟨h1, hd, ?_, h5, ?_⟩
  · unfold next; simp only; omega
  · unfold next; simp only; omega

theorem ms_new_range (s : MsCh) (n : Nat) : -32768 ≤ (next s n).new ∧ (next s n).new ≤ 32767 := by
  unfold next; simp only; omega

/-- The state after a sequence of codes. -/
def msLast (s : MsCh) (ns : List Nat) : MsCh := ns.foldl next s

/-- Mono blocks. -/
def msMono : Dec MsCh where
  hl := 7
  gl := 1
  hs := 2
  gn := 2
  head h := (start h, [(start h).old, (start h).new])
  grp s g := if s.Ok ∧ (next s (byteAt g 0 / 16)).Ok ∧ g.length = 1 then
    some (next (next s (byteAt g 0 / 16)) (byteAt g 0 % 16), [(next s (byteAt g 0 / 16)).new, (next (next s (byteAt g 0 / 16)) (byteAt g 0 % 16)).new])
  else none

/-- Stereo blocks. -/
def msStereo : Dec (Two MsCh) where
  hl := 14
  gl := 1
  hs := 4
  gn := 2
  head h := (⟨startLeft h, startRight h⟩, [(startLeft h).old, (startRight h).old, (startLeft h).new, (startRight h).new])
  grp s g := if s.left.Ok ∧ s.right.Ok ∧ g.length = 1 then
    some (⟨next s.left (byteAt g 0 / 16), next s.right (byteAt g 0 % 16)⟩, [(next s.left (byteAt g 0 / 16)).new, (next s.right (byteAt g 0 % 16)).new])
  else none

theorem byteAt_lt (g : List Byte) (i : Nat) : byteAt g i < 256 := (g.getD i 0).isLt

theorem list4 {α : Type} {l : List α} (h : l.length = 4) : ∃ a b c d, l = [a, b, c, d] := by
  match l, h with
  | [a, b, c, d], _ => exact ⟨a, b, c, d, rfl⟩

theorem ms_mono_implements : Implements ms msMono (fun t => t.left) 1 where
  gl_pos := by decide
  hs_pos := by decide
  gn_pos := by decide
  hs_len _ := rfl
  gn_len s g r h := by
    unfold msMono at h
    simp only at h
    split at h
    · rw [← Option.some.inj h]; rfl
    · exact absurd h (by simp)
  header s h rest hch hl e hh hal hal' := by
    have hh7 : h.length = 7 := hh
    obtain ⟨c0, c1, c2, c3, ec⟩ := list4 hl
    have hr := fread_append e
    rw [hh7] at hr
    refine ⟨?res1, ?_, ⟨?_, ?_⟩, ?_, ?_, ?_, ?_, ?_, ?_⟩
    rotate_left
    · show (msHeader s) = _
      unfold msHeader
      rw [if_pos hch, hr]
      simp only
      rw [if_neg (by simp [hh7]), s16At_eq _ _ (by omega), s16At_eq _ _ (by omega), s16At_eq _ _ (by omega)]
    · rfl
    · rfl
    · exact blockRest_eq hal hal'
    · simp only [Ad.at, List.length_set]; exact hl
    · rfl
    · simp [ms]
    · rfl
    · simp only [Ad.at, ms, msMono, start]
      rw [ec]
      simp [toS16_id (int16_range h 5), toS16_id (int16_range h 3)]
  load s g rest r hch hl e hg hrem hrem' hgr := by
    have hg1 : g.length = 1 := hg
    unfold msMono at hgr
    simp only at hgr
    split at hgr
    swap
    · exact absurd hgr (by simp)
    rename_i hok
    obtain ⟨hok, hok2, -⟩ := hok
    have hgr := (Option.some.inj hgr).symm
    subst hgr
    obtain ⟨c0, c1, c2, c3, ec⟩ := list4 hl
    have hr := fread_append e
    rw [hg1] at hr
    have hb := byteAt_lt g 0
    refine ⟨?res2, ?_, ⟨?_, ?_⟩, ?_, ?_, ?_, ?_, ?_, ?_⟩
    rotate_left
    · show msLoad s = _
      unfold msLoad
      rw [hr]
      simp only
      rw [if_neg (by simp [hg1]), if_pos (by exact hch)]
      simp only [Ad.at]
      rw [msNibble_eq hok (by omega)]
      simp only [bind, Except.bind]
      rw [msNibble_eq hok2 (by omega)]
    · rfl
    · rfl
    · exact blockRest_eq hrem hrem'
    · simp only [List.length_set]; exact hl
    · rfl
    · simp [ms]
    · rfl
    · simp only [ms, ec]
      simp [toS16_id (ms_new_range _ _)]
  short s hch h := by
    show msHeader s = _
    unfold msHeader
    rw [if_pos hch]
    simp only
    rw [if_pos (fread_short (n := 7) h)]
    rfl

/-- Decoding at the end of the file. -/
theorem ms_short {τ : Type} (d : Dec τ) (ch : Nat) (h1 : d.gl = 1) : ShortLoad ms d ch := by
  intro s _ h
  rw [h1] at h ⊢
  show msLoad s = _
  unfold msLoad
  simp only
  rw [if_pos (fread_short (n := 1) h)]

theorem ms_stereo_implements : Implements ms msStereo id 2 where
  gl_pos := by decide
  hs_pos := by decide
  gn_pos := by decide
  hs_len _ := rfl
  gn_len s g r h := by
    unfold msStereo at h
    simp only at h
    split at h
    · rw [← Option.some.inj h]; rfl
    · exact absurd h (by simp)
  header s h rest hch hl e hh hal hal' := by
    have hh14 : h.length = 14 := hh
    have hr := fread_append e
    rw [hh14] at hr
    refine ⟨?res3, ?_, ⟨?_, ?_⟩, ?_, ?_, ?_, ?_, ?_, ?_⟩
    rotate_left
    · show (msHeader s) = _
      unfold msHeader
      rw [if_neg (by omega), hr]
      simp only
      rw [if_neg (by simp [hh14]), s16At_eq _ _ (by omega), s16At_eq _ _ (by omega), s16At_eq _ _ (by omega), s16At_eq _ _ (by omega), s16At_eq _ _ (by omega),
        s16At_eq _ _ (by omega)]
    · rfl
    · rfl
    · exact blockRest_eq hal hal'
    · rfl
    · rfl
    · simp [ms]
    · rfl
    · simp only [ms, msStereo, startLeft, startRight]
      simp [toS16_id (int16_range h 10), toS16_id (int16_range h 6), toS16_id (int16_range h 12), toS16_id (int16_range h 8)]
  load s g rest r hch hl e hg hrem hrem' hgr := by
    have hg1 : g.length = 1 := hg
    unfold msStereo at hgr
    simp only at hgr
    split at hgr
    swap
    · exact absurd hgr (by simp)
    rename_i hok
    obtain ⟨hokl, hokr, -⟩ := hok
    have hgr := (Option.some.inj hgr).symm
    subst hgr
    simp only [id] at hokl hokr ⊢
    obtain ⟨c0, c1, c2, c3, ec⟩ := list4 hl
    have hr := fread_append e
    rw [hg1] at hr
    have hb := byteAt_lt g 0
    refine ⟨?res4, ?_, ⟨?_, ?_⟩, ?_, ?_, ?_, ?_, ?_, ?_⟩
    rotate_left
    · show msLoad s = _
      unfold msLoad
      rw [hr]
      simp only
      rw [if_neg (by simp [hg1]), if_neg (by show ¬ s.w.channels = 1; omega)]
      simp only [Ad.at]
      rw [msNibble_eq hokl (by omega)]
      simp only [bind, Except.bind]
      rw [msNibble_eq hokr (by omega)]
    · rfl
    · rfl
    · exact blockRest_eq hrem hrem'
    · simp only [List.length_set]; exact hl
    · rfl
    · simp [ms]
    · rfl
    · simp only [ms, ec]
      simp [toS16_id (ms_new_range _ _)]
  short s hch h := by
    show msHeader s = _
    unfold msHeader
    rw [if_neg (by omega)]
    simp only
    rw [if_pos (fread_short (n := 14) h)]
    rfl

end DrWav
end Verif
