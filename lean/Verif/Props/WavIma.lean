import Verif.Proof.DrWavAdpcm
import Verif.Props.WavOpen
/-!
# C95: IMA ADPCM
-/
namespace Verif
open DrWav WavSpec

/-! ## Specification -/

namespace AdSpec

/-- What calls on a reader over the samples `xs`, at position `p`, return. -/
def run (xs : List Int) : Nat → List ROp → List AdVal
  | _, [] => []
  | p, .read n :: os => .samples ((xs.drop p).take n.toNat) :: run xs (min (p + n.toNat) xs.length) os
  | p, .seek t :: os => .bool true :: run xs (if xs.length = 0 then p else min t.toNat (xs.length - 1)) os
  | _, .restart :: os => .bool true :: run xs 0 os
  | p, .position :: os => run xs p os

/-- Sequences of calls that do not go back, except from the boundary of two blocks (of `per` samples each), and do not ask for the position. -/
def Forward (per total : Nat) : Nat → List ROp → Prop
  | _, [] => True
  | p, .read n :: os => Forward per total (min (p + n.toNat) total) os
  | p, .seek t :: os => (min t.toNat (total - 1) < p → p % per = 0) ∧ Forward per total (if total = 0 then p else min t.toNat (total - 1)) os
  | p, .restart :: os => p % per = 0 ∧ Forward per total 0 os
  | _, .position :: _ => False

/-- Alternating elements of two lists. -/
def interleave : List Int → List Int → List Int
  | x :: xs, y :: ys => x :: y :: interleave xs ys
  | _, _ => []

/-- A signed 16-bit number, least significant byte first, at an offset. -/
def int16 (b : List Byte) (i : Nat) : Int :=
  let v := (b.getD i 0).toNat + 256 * (b.getD (i + 1) 0).toNat
  if v < 32768 then v else v - 65536

end AdSpec

namespace ImaSpec
open AdSpec

/-- The step sizes of the IMA recommended practices. -/
def steps : List Int := [7, 8, 9, 10, 11, 12, 13, 14, 16, 17, 19, 21, 23, 25, 28, 31, 34, 37, 41, 45, 50, 55, 60, 66, 73, 80, 88, 97, 107, 118, 130, 143, 157, 173,
  190, 209, 230, 253, 279, 307, 337, 371, 408, 449, 494, 544, 598, 658, 724, 796, 876, 963, 1060, 1166, 1282, 1411, 1552, 1707, 1878, 2066, 2272, 2499, 2749,
  3024, 3327, 3660, 4026, 4428, 4871, 5358, 5894, 6484, 7132, 7845, 8630, 9493, 10442, 11487, 12635, 13899, 15289, 16818, 18500, 20350, 22385, 24623, 27086,
  29794, 32767]

/-- The change of the step index for each magnitude. -/
def indexChange (nib : Nat) : Int := [-1, -1, -1, -1, 2, 4, 6, 8].getD (nib % 8) 0

/-- One code of four bits, a sign and a magnitude: the predicted sample moves by about `(magnitude + 1/2) / 4` steps, and is clamped to 16 bits; the step index is clamped to the table. -/
def next (s : ImaCh) (nib : Nat) : ImaCh :=
  let step := steps.getD s.index 0
  let d := step / 8 + (if nib.testBit 0 then step / 4 else 0) + (if nib.testBit 1 then step / 2 else 0) + (if nib.testBit 2 then step else 0)
  ⟨max (-32768) (min 32767 (s.pred + if nib.testBit 3 then -d else d)), (max 0 (min 88 (s.index + indexChange nib))).toNat⟩

/-- The samples of a sequence of codes. -/
def samples : ImaCh → List Nat → List Int
  | _, [] => []
  | s, n :: ns => (next s n).pred :: samples (next s n) ns

/-- The codes in a list of bytes, the low half of each byte first. -/
def codes (b : List Byte) : List Nat := b.flatMap fun x => [x.toNat % 16, x.toNat / 16]

/-- The beginning of a channel: a sample and a step index, in four bytes. -/
def start (b : List Byte) : ImaCh := ⟨int16 b 0, (b.getD 2 0).toNat⟩

/-- A block of a mono file: the first sample and the step index, then codes. -/
def mono (b : List Byte) : List Int := (start b).pred :: samples (start b) (codes (b.drop 4))

/-- A block of a stereo file: the beginnings of both channels, then four bytes of codes for the left channel and for the right one in turn. -/
def stereo (b : List Byte) : List Int :=
  interleave ((start b).pred :: samples (start b) (codes ((samplesOf 8 (b.drop 8)).flatMap fun g => g.take 4)))
    ((start (b.drop 4)).pred :: samples (start (b.drop 4)) (codes ((samplesOf 8 (b.drop 8)).flatMap fun g => g.drop 4)))

/-- The samples of the complete blocks of a data chunk. -/
def decode (channels align : Nat) (data : List Byte) : List Int := (samplesOf align data).flatMap (if channels = 1 then mono else stereo)

/-- The step indices in the header of a block are in the table. -/
def ValidHeader (channels : Nat) (b : List Byte) : Prop := (start b).index ≤ 88 ∧ (channels = 2 → (start (b.drop 4)).index ≤ 88)

/-- Samples per block. -/
def perBlock (channels align : Nat) : Nat := channels + 2 * (align - 4 * channels)

end ImaSpec

open AdSpec ImaSpec

/-! ## Going through a sequence of calls -/

namespace DrWav

variable {σ τ : Type} {c : Codec σ} {d : Dec τ} {view : σ → τ} {ch : Nat}

theorem GoodCut.cur {w0 : Wav} {s : Ad σ} {fut : List Int} {miss : Nat} (h : GoodCut c d view ch w0 s fut miss) : s.cur + fut.length + miss = w0.total := by
  obtain ⟨⟨p, e⟩, gs, bs, tail, h⟩ := h
  have := h.total
  rw [e] at this
  exact this

theorem GoodCut.tot {w0 : Wav} {s : Ad σ} {fut : List Int} {miss : Nat} (h : GoodCut c d view ch w0 s fut miss) : s.w.total = w0.total := by
  obtain ⟨⟨p, e⟩, -⟩ := h
  rw [e]

theorem adRun_spec (I : Implements c d view ch) {w0 : Wav} {xs : List Int} (hw : WellFormed d ch w0 xs) (hp : toI32 w0.dataPos = w0.file.pos)
    (hr : w0.remaining = w0.dataSize) (ops : List ROp) {p : Nat} {s : Ad σ} (hps : p ≤ xs.length) (h : GoodAd c d view ch w0 s (xs.drop p))
    (hf : Forward (d.per w0.align) xs.length p ops) : adRun c s ops = .ok (AdSpec.run xs p ops) := by
  have hper : xs.length % d.per w0.align = 0 := by
    obtain ⟨bs, tail, -, h2, h3⟩ := hw.blocks
    rw [dec_blocks_length I hw.dvd bs h2 xs h3, Nat.mul_mod_right]
  have hpp : 0 < d.per w0.align := by unfold Dec.per; have := I.hs_pos; omega
  have hmod : ∀ q, q ≤ xs.length → q % d.per w0.align = 0 → (xs.drop q).length % d.per w0.align = 0 := by
    intro q hq h0
    rw [List.length_drop]
    obtain ⟨a, ha⟩ := Nat.dvd_of_mod_eq_zero hper
    obtain ⟨b, hb⟩ := Nat.dvd_of_mod_eq_zero h0
    rw [ha, hb, ← Nat.mul_sub, Nat.mul_mod_right]
  induction ops generalizing p s with
  | nil => rfl
  | cons o ops ih =>
    rw [adRun]
    cases o with
    | read n =>
      obtain ⟨s', e1, e2⟩ := readAd_spec I n.toNat h
      rw [adStep, e1]
      simp only [Except.map]
      rw [List.drop_drop] at e2
      have e3 : xs.drop (p + n.toNat) = xs.drop (min (p + n.toNat) xs.length) := by
        rcases Nat.le_total (p + n.toNat) xs.length with h1 | h1
        · rw [Nat.min_eq_left h1]
        · rw [Nat.min_eq_right h1, List.drop_length, List.drop_eq_nil_of_le h1]
      rw [e3] at e2
      rw [ih (by omega) e2 hf, AdSpec.run]
    | seek t =>
      obtain ⟨hf1, hf2⟩ := hf
      rw [adStep, seekAd, h.tot, ← hw.total]
      by_cases h0 : xs.length = 0
      · rw [if_pos h0]
        simp only [Except.map]
        rw [if_pos h0] at hf2
        rw [ih hps h hf2, AdSpec.run, if_pos h0]
      rw [if_neg h0]
      simp only
      have es : (if xs.length ≤ t.toNat then xs.length - 1 else t.toNat) = min t.toNat (xs.length - 1) := by split <;> omega
      rw [es]
      rw [if_neg h0] at hf2
      generalize hq : min t.toNat (xs.length - 1) = q at *
      have hql : q < xs.length := by omega
      have hcur := h.cur
      rw [List.length_drop, ← hw.total] at hcur
      have key : ∃ s1, (if q < s.cur then restartAd s else some s) = some s1 ∧
          ∃ p1, p1 ≤ q ∧ GoodAd c d view ch w0 s1 (xs.drop p1) := by
        by_cases hlt : q < s.cur
        · rw [if_pos hlt]
          obtain ⟨s1, k1, k2⟩ := restartAd_spec I hw hp hr h (hmod p hps (hf1 (by omega)))
          exact ⟨s1, k1, 0, Nat.zero_le _, by simpa using k2⟩
        · rw [if_neg hlt]
          exact ⟨s, rfl, p, by omega, h⟩
      obtain ⟨s1, k1, p1, k2, k3⟩ := key
      rw [k1]
      simp only
      have hcur1 := k3.cur
      rw [List.length_drop, ← hw.total] at hcur1
      have key2 : ∃ s2, (if s1.cur < q then skipAd c s1 (q - s1.cur) else .ok (true, s1)) = .ok (true, s2) ∧ GoodAd c d view ch w0 s2 (xs.drop q) := by
        by_cases hlt : s1.cur < q
        · rw [if_pos hlt]
          obtain ⟨s2, m1, m2⟩ := skipAd_spec I (q - s1.cur) k3 (by rw [List.length_drop]; omega)
          refine ⟨s2, m1, ?_⟩
          rw [List.drop_drop] at m2
          rwa [show p1 + (q - s1.cur) = q by omega] at m2
        · rw [if_neg hlt]
          refine ⟨s1, rfl, ?_⟩
          rwa [show q = p1 by omega]
      obtain ⟨s2, m1, m2⟩ := key2
      rw [m1]
      simp only [Except.map]
      rw [ih (by omega) m2 hf2, AdSpec.run, if_neg h0, hq]
    | restart =>
      obtain ⟨hf1, hf2⟩ := hf
      obtain ⟨s1, k1, k2⟩ := restartAd_spec I hw hp hr h (hmod p hps hf1)
      rw [adStep, k1]
      simp only [Except.map]
      rw [ih (Nat.zero_le _) (by simpa using k2) hf2, AdSpec.run]
    | position => exact absurd hf (by simp [Forward])

/-! ## The IMA decoder -/

/-- States from which decoding cannot go wrong. -/
def ImaCh.Ok (s : ImaCh) : Prop := s.index ≤ 88 ∧ -32768 ≤ s.pred ∧ s.pred ≤ 32767

instance (s : ImaCh) : Decidable s.Ok := by unfold ImaCh.Ok; infer_instance

theorem steps_eq : imaStepTable = steps := rfl

theorem steps_bound : ∀ i : Fin 89, 0 ≤ steps.getD i.val 0 ∧ steps.getD i.val 0 ≤ 32767 := by decide

theorem steps_get : ∀ i : Fin 89, readAt imaStepTable i.val = .ok (steps.getD i.val 0) := by decide +kernel

theorem index_get : ∀ n : Fin 16, readAt imaIndexTable n.val = .ok (indexChange n.val) := by decide

theorem bits_eq : ∀ n : Fin 16, (n.val.testBit 0 = true ↔ n.val % 2 = 1) ∧ (n.val.testBit 1 = true ↔ n.val / 2 % 2 = 1) ∧
    (n.val.testBit 2 = true ↔ n.val / 4 % 2 = 1) ∧ (n.val.testBit 3 = true ↔ n.val / 8 % 2 = 1) := by decide

theorem next_ok (s : ImaCh) (n : Nat) : (ImaSpec.next s n).Ok := by
  unfold ImaSpec.next ImaCh.Ok
  simp only
  refine ⟨?_, ?_, ?_⟩ <;> omega

theorem imaNibble_eq {s : ImaCh} (h : s.Ok) {n : Nat} (hn : n < 16) : imaNibble s n = .ok (ImaSpec.next s n) := by
  obtain ⟨h1, h2, h3⟩ := h
  unfold imaNibble
  have hs := steps_get ⟨s.index, by omega⟩
  have hi := index_get ⟨n, hn⟩
  have hb := steps_bound ⟨s.index, by omega⟩
  obtain ⟨b0, b1, b2, b3⟩ := bits_eq ⟨n, hn⟩
  simp only at hs hi hb b0 b1 b2 b3
  rw [hs, hi]
  simp only
  unfold ImaSpec.next imaDiff
  simp only [b0, b1, b2, b3]
  generalize steps.getD s.index 0 = st at *
  generalize hd : st / 8 + (if n % 2 = 1 then st / 4 else 0) + (if n / 2 % 2 = 1 then st / 2 else 0) + (if n / 4 % 2 = 1 then st else 0) = d
  have hd' : 0 ≤ d ∧ d ≤ 100000 := by
    rw [← hd]
    split <;> split <;> split <;> omega
  have hi32 : int32 (s.pred + (if n / 8 % 2 = 1 then -d else d)) = .ok (s.pred + (if n / 8 % 2 = 1 then -d else d)) := by
    unfold int32
    rw [if_pos]
    split <;> omega
  rw [hi32]
  rfl

/-- The state after a sequence of codes. -/
def imaLast (s : ImaCh) (ns : List Nat) : ImaCh := ns.foldl ImaSpec.next s

theorem imaLast_ok {s : ImaCh} (h : s.Ok) (ns : List Nat) : (imaLast s ns).Ok := by
  induction ns generalizing s with
  | nil => exact h
  | cons n ns ih => exact ih (next_ok s n)

theorem samples_append (s : ImaCh) (a b : List Nat) : samples s (a ++ b) = samples s a ++ samples (imaLast s a) b := by
  induction a generalizing s with
  | nil => rfl
  | cons n a ih => simp only [List.cons_append, samples, ih]; rfl

theorem samples_length (s : ImaCh) (a : List Nat) : (samples s a).length = a.length := by
  induction a generalizing s with
  | nil => rfl
  | cons n a ih => simp [samples, ih]

theorem samples_range {s : ImaCh} {a : List Nat} {x : Int} (h : x ∈ samples s a) : -32768 ≤ x ∧ x ≤ 32767 := by
  induction a generalizing s with
  | nil => exact absurd h (by simp [samples])
  | cons n a ih =>
    rw [samples, List.mem_cons] at h
    rcases h with rfl | h
    · exact (next_ok s n).2
    · exact ih h

theorem toS16_id {x : Int} (h : -32768 ≤ x ∧ x ≤ 32767) : toS16 x = x := by
  unfold toS16 signed
  norm_num
  split <;> omega

theorem map_toS16 {xs : List Int} (h : ∀ x ∈ xs, -32768 ≤ x ∧ x ≤ 32767) : xs.map toS16 = xs := by
  conv_rhs => rw [← List.map_id xs]
  exact List.map_congr_left fun x hx => toS16_id (h x hx)

theorem nibbles_eq : nibbles = codes := rfl

theorem codes_lt {b : List Byte} {n : Nat} (h : n ∈ codes b) : n < 16 := by
  unfold codes at h
  simp only [List.mem_flatMap, List.mem_cons, List.not_mem_nil, or_false] at h
  obtain ⟨x, -, h⟩ := h
  have := x.isLt
  omega

/-- Eight codes into every position of the second half of the cache, or every other position of the whole cache. -/
theorem imaChan_eq (channels at_ k : Nat) (ns : List Nat) (s : ImaCh) (cache : List Int) (h : s.Ok) (hn : ∀ n ∈ ns, n < 16)
    (hb : ns = [] ∨ at_ + (k + ns.length - 1) * channels < cache.length) :
    imaChan channels at_ k ns s cache = .ok (imaLast s ns, (samples s ns).foldl (fun (a : Nat × List Int) x => (a.1 + channels, a.2.set a.1 x)) (at_ + k * channels, cache) |>.2) := by
  induction ns generalizing k s cache with
  | nil => rfl
  | cons n ns ih =>
    rw [imaChan, imaNibble_eq h (hn n (by simp))]
    simp only
    have hb' : at_ + (k + (ns.length + 1) - 1) * channels < cache.length := by simpa using hb
    have h1 : k * channels ≤ (k + (ns.length + 1) - 1) * channels := Nat.mul_le_mul_right _ (by omega)
    rw [writeAt_ok (by omega)]
    simp only
    rw [ih (k + 1) _ _ (next_ok s n) (fun m hm => hn m (by simp [hm]))]
    · simp only [samples, List.foldl_cons, imaLast]
      rw [show at_ + (k + 1) * channels = at_ + k * channels + channels by ring]
    · right
      rw [List.length_set]
      rwa [show k + 1 + ns.length - 1 = k + (ns.length + 1) - 1 by omega]

theorem codes_four {g : List Byte} (h : g.length = 4) : (codes g).length = 8 := by
  unfold codes
  rw [List.length_flatMap]
  simp [h]

theorem list8 {α : Type} {l : List α} (h : l.length = 8) : ∃ a b c d e f g i, l = [a, b, c, d, e, f, g, i] := by
  match l, h with
  | [a, b, c, d, e, f, g, i], _ => exact ⟨a, b, c, d, e, f, g, i, rfl⟩

theorem list16 {α : Type} {l : List α} (h : l.length = 16) : ∃ a b c d e f g i a' b' c' d' e' f' g' i', l = [a, b, c, d, e, f, g, i, a', b', c', d', e', f', g', i'] := by
  match l, h with
  | [a, b, c, d, e, f, g, i, a', b', c', d', e', f', g', i'], _ => exact ⟨a, b, c, d, e, f, g, i, a', b', c', d', e', f', g', i', rfl⟩

theorem fread_append {f : File} {h rest : List Byte} (e : f.bytes.drop f.pos = h ++ rest) : fread f h.length = (h, { f with pos := f.pos + h.length }) := by
  unfold fread
  rw [e, List.take_left]

theorem blockRest_eq {a n : Nat} (h : n ≤ a) (h' : a < 65536) : blockRest a n = a - n := by
  unfold blockRest
  omega

theorem s16At_eq (b : List Byte) (i : Nat) (h : i + 2 ≤ b.length) : s16At b i = int16 b i := by
  unfold s16At int16
  have e : (b.drop i).take 2 = [b.getD i 0, b.getD (i + 1) 0] := by
    rw [List.drop_eq_getElem_cons (by omega), List.drop_eq_getElem_cons (by omega)]
    simp only [List.getD, List.getElem?_eq_getElem (by omega : i < b.length), List.getElem?_eq_getElem (by omega : i + 1 < b.length), Option.getD_some]
    rfl
  rw [e]
  simp only [leNat, signed]
  norm_num

theorem int16_range (b : List Byte) (i : Nat) : -32768 ≤ int16 b i ∧ int16 b i ≤ 32767 := by
  unfold int16
  have h1 := (b.getD i 0).isLt
  have h2 := (b.getD (i + 1) 0).isLt
  simp only
  split <;> omega

/-- Reading at the end of the file. -/
theorem fread_short {f : File} {n : Nat} (h : (f.bytes.drop f.pos).length < n) : (fread f n).1.length ≠ n := by
  unfold fread
  simp only
  rw [List.length_take]
  omega

/-- Mono blocks. -/
def imaMono : Dec ImaCh where
  hl := 4
  gl := 4
  hs := 1
  gn := 8
  head h := (start h, [(start h).pred])
  grp s g := if s.Ok ∧ g.length = 4 then some (imaLast s (codes g), samples s (codes g)) else none

/-- Stereo blocks. -/
def imaStereo : Dec (Two ImaCh) where
  hl := 8
  gl := 8
  hs := 2
  gn := 16
  head h := (⟨start h, start (h.drop 4)⟩, [(start h).pred, (start (h.drop 4)).pred])
  grp s g := if s.left.Ok ∧ s.right.Ok ∧ g.length = 8 then
    some (⟨imaLast s.left (codes (g.take 4)), imaLast s.right (codes (g.drop 4))⟩, interleave (samples s.left (codes (g.take 4))) (samples s.right (codes (g.drop 4))))
  else none

theorem ima_mono_implements : Implements ima imaMono (fun t => t.left) 1 where
  gl_pos := by decide
  hs_pos := by decide
  gn_pos := by decide
  hs_len _ := rfl
  gn_len s g r h := by
    unfold imaMono at h
    simp only at h
    split at h
    · rename_i h'
      rw [← Option.some.inj h]
      simp only
      rw [samples_length, codes_four h'.2]
      rfl
    · exact absurd h (by simp)
  header s h rest hch hl e hh hal hal' := by
    have hh4 : h.length = 4 := hh
    obtain ⟨c0, c1, c2, c3, c4, c5, c6, c7, c8, c9, c10, c11, c12, c13, c14, c15, ec⟩ := list16 hl
    have hr := fread_append e
    rw [hh4] at hr
    refine ⟨?res1, ?_, ⟨?_, ?_⟩, ?_, ?_, ?_, ?_, ?_, ?_⟩
    rotate_left
    · show (imaHeader s) = _
      unfold imaHeader
      rw [if_pos hch, hr]
      simp only
      rw [if_neg (by simp [hh4])]
    · rfl
    · rfl
    · exact blockRest_eq hal hal'
    · simp only [Ad.at, List.length_set]; exact hl
    · rfl
    · simp [ima]
    · simp only [imaMono, start]
      rw [s16At_eq _ _ (by omega)]
      rfl
    · simp only [Ad.at, ima, imaMono, start]
      rw [ec, s16At_eq _ _ (by omega)]
      simp [toS16_id (int16_range h 0)]
  load s g rest r hch hl e hg hrem hrem' hgr := by
    have hg4 : g.length = 4 := hg
    unfold imaMono at hgr
    simp only at hgr
    split at hgr
    swap
    · exact absurd hgr (by simp)
    rename_i hok
    obtain ⟨hok, -⟩ := hok
    have hgr := (Option.some.inj hgr).symm
    subst hgr
    obtain ⟨c0, c1, c2, c3, c4, c5, c6, c7, c8, c9, c10, c11, c12, c13, c14, c15, ec⟩ := list16 hl
    have hr := fread_append e
    rw [hg4] at hr
    have hsl := samples_length s.st.left (codes g)
    rw [codes_four hg4] at hsl
    obtain ⟨x0, x1, x2, x3, x4, x5, x6, x7, ex⟩ := list8 hsl
    have hrange : ∀ x ∈ samples s.st.left (codes g), -32768 ≤ x ∧ x ≤ 32767 := fun x hx => samples_range hx
    have hcl := codes_four hg4
    refine ⟨?res2, ?_, ⟨?_, ?_⟩, ?_, ?_, ?_, ?_, ?_, ?_⟩
    rotate_left
    · show imaLoad s = _
      unfold imaLoad
      rw [hch, imaChans]
      simp only
      rw [hr]
      simp only
      rw [if_neg (by simp [hg4])]
      simp only [Ad.at, Two.get, if_true, hch, nibbles_eq]
      rw [imaChan_eq _ _ _ _ _ _ hok (fun n hn => codes_lt hn) (Or.inr (by rw [hl, hcl]; simp [ima]))]
      simp only
      rw [imaChans]
    · simp [imaMono, hch]
    · rfl
    · exact blockRest_eq hrem hrem'
    · simp only [ex, ec]; simp [ima]
    · rfl
    · simp [ima]
    · simp [Two.set]
    · simp only [ima, ex, ec]
      rw [ex] at hrange
      simp only [List.foldl_cons, List.foldl_nil]
      simp only [List.set_cons_succ, List.set_cons_zero, Nat.reduceMul, Nat.reduceSub, Nat.reduceAdd, List.drop_succ_cons, List.drop_zero]
      rw [map_toS16]
      simpa using hrange
  short s hch h := by
    show imaHeader s = _
    unfold imaHeader
    rw [if_pos hch]
    simp only
    rw [if_pos (fread_short (n := 4) h)]
    rfl

theorem ima_stereo_implements : Implements ima imaStereo id 2 where
  gl_pos := by decide
  hs_pos := by decide
  gn_pos := by decide
  hs_len _ := rfl
  gn_len s g r h := by
    unfold imaStereo at h
    simp only at h
    split at h
    · rename_i h'
      rw [← Option.some.inj h]
      simp only
      obtain ⟨x0, x1, x2, x3, x4, x5, x6, x7, ex⟩ := list8 (l := samples s.left (codes (g.take 4))) (by
        rw [samples_length, codes_four (by rw [List.length_take]; omega)])
      obtain ⟨y0, y1, y2, y3, y4, y5, y6, y7, ey⟩ := list8 (l := samples s.right (codes (g.drop 4))) (by
        rw [samples_length, codes_four (by rw [List.length_drop]; omega)])
      rw [ex, ey]
      rfl
    · exact absurd h (by simp)
  header s h rest hch hl e hh hal hal' := by
    have hh8 : h.length = 8 := hh
    obtain ⟨c0, c1, c2, c3, c4, c5, c6, c7, c8, c9, c10, c11, c12, c13, c14, c15, ec⟩ := list16 hl
    have hr := fread_append e
    rw [hh8] at hr
    have e4 : s16At h 4 = int16 (h.drop 4) 0 := by
      rw [s16At_eq _ _ (by omega)]; unfold int16; simp [List.getD]
    have e6 : byteAt h 6 = ((h.drop 4).getD 2 0).toNat := by
      unfold byteAt; simp [List.getD]
    refine ⟨?res3, ?_, ⟨?_, ?_⟩, ?_, ?_, ?_, ?_, ?_, ?_⟩
    rotate_left
    · show (imaHeader s) = _
      unfold imaHeader
      rw [if_neg (by omega), hr]
      simp only
      rw [if_neg (by simp [hh8])]
    · rfl
    · rfl
    · exact blockRest_eq hal hal'
    · simp only [Ad.at, List.length_set]; exact hl
    · rfl
    · simp [ima]
    · simp only [Ad.at, imaStereo, start]
      rw [s16At_eq _ 0 (by omega), e4, e6]
      rfl
    · simp only [Ad.at, ima, imaStereo, start]
      rw [ec, s16At_eq _ 0 (by omega), e4]
      simp [toS16_id (int16_range h 0), toS16_id (int16_range (h.drop 4) 0)]
  load s g rest r hch hl e hg hrem hrem' hgr := by
    have hg8 : g.length = 8 := hg
    unfold imaStereo at hgr
    simp only at hgr
    split at hgr
    swap
    · exact absurd hgr (by simp)
    rename_i hok
    obtain ⟨hokl, hokr, -⟩ := hok
    have hgr := (Option.some.inj hgr).symm
    subst hgr
    simp only [id] at hokl hokr ⊢
    have e' : s.w.file.bytes.drop s.w.file.pos = g.take 4 ++ (g.drop 4 ++ rest) := by
      rw [e, ← List.append_assoc, List.take_append_drop]
    have ht4 : (g.take 4).length = 4 := by rw [List.length_take]; omega
    have hd4 : (g.drop 4).length = 4 := by rw [List.length_drop]; omega
    have e'' : s.w.file.bytes.drop (s.w.file.pos + 4) = g.drop 4 ++ rest := by
      rw [← List.drop_drop, e', List.drop_left' ht4]
    obtain ⟨c0, c1, c2, c3, c4, c5, c6, c7, c8, c9, c10, c11, c12, c13, c14, c15, ec⟩ := list16 hl
    have hr := fread_append e'
    rw [ht4] at hr
    have hr2 := fread_append (f := { s.w.file with pos := s.w.file.pos + 4 }) e''
    rw [hd4] at hr2
    have hsl := samples_length s.st.left (codes (g.take 4))
    rw [codes_four ht4] at hsl
    have hsr := samples_length s.st.right (codes (g.drop 4))
    rw [codes_four hd4] at hsr
    obtain ⟨x0, x1, x2, x3, x4, x5, x6, x7, ex⟩ := list8 hsl
    obtain ⟨y0, y1, y2, y3, y4, y5, y6, y7, ey⟩ := list8 hsr
    have hrl : ∀ x ∈ samples s.st.left (codes (g.take 4)), -32768 ≤ x ∧ x ≤ 32767 := fun x hx => samples_range hx
    have hrr : ∀ x ∈ samples s.st.right (codes (g.drop 4)), -32768 ≤ x ∧ x ≤ 32767 := fun x hx => samples_range hx
    have hcl := codes_four ht4
    have hcr := codes_four hd4
    refine ⟨?res4, ?_, ⟨?_, ?_⟩, ?_, ?_, ?_, ?_, ?_, ?_⟩
    rotate_left
    · show imaLoad s = _
      unfold imaLoad
      rw [hch, imaChans]
      simp only
      rw [hr]
      simp only
      rw [if_neg (by simp [ht4])]
      simp only [Ad.at, Two.get, if_true, hch, nibbles_eq]
      rw [imaChan_eq _ _ _ _ _ _ hokl (fun n hn => codes_lt hn) (Or.inr (by rw [hl, hcl]; simp [ima]))]
      simp only
      rw [imaChans]
      simp only
      rw [hr2]
      simp only
      rw [if_neg (by simp [hd4])]
      simp only [Ad.at, Two.get, Two.set, if_true, hch, nibbles_eq, Nat.zero_add, Nat.one_ne_zero, if_false]
      rw [imaChan_eq _ _ _ _ _ _ hokr (fun n hn => codes_lt hn) (Or.inr (by rw [hcr, ex, ec]; simp [ima]))]
      simp only
      rw [imaChans]
    · simp [imaStereo, hch]
    · rfl
    · simp only
      rw [blockRest_eq (by have : (8:ℕ) ≤ s.rem := hrem; omega : 4 ≤ s.rem) hrem', blockRest_eq (by have : (8:ℕ) ≤ s.rem := hrem; omega) (by omega)]
      show _ = s.rem - 8
      omega
    · simp only [ex, ey, ec]; simp [ima]
    · rfl
    · simp [ima]
    · rfl
    · simp only [ima, ex, ey, ec]
      rw [ex] at hrl
      rw [ey] at hrr
      simp only [List.foldl_cons, List.foldl_nil]
      simp only [List.set_cons_succ, List.set_cons_zero, Nat.reduceMul, Nat.reduceSub, Nat.reduceAdd, List.drop_succ_cons, List.drop_zero, interleave]
      rw [map_toS16]
      simp at hrl hrr
      simp [hrl, hrr]
  short s hch h := by
    show imaHeader s = _
    unfold imaHeader
    rw [if_neg (by omega)]
    simp only
    rw [if_pos (fread_short (n := 8) h)]
    rfl

end DrWav
end Verif
