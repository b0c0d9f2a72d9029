import Verif.Proof.DrWavWrite
import Verif.Model.Wav
/-!
# C90, C91: writing a WAV file and reading it back; crashes

Specification: a reader is a *tape*, a list of samples and a position.
-/
namespace Verif
open DrWav

namespace WavSpec

/-- What a call does on a tape `xs` at position `p`: its result, and the new position. Seeking goes at most to the last sample, and does
nothing on an empty tape. -/
def tapeStep (xs : List (List Byte)) (p : Nat) : ROp → RVal × Nat
  | .read n => (.samples ((xs.drop p).take n.toNat), min (p + n.toNat) xs.length)
  | .seek t => (.bool true, if xs.length = 0 then p else min t.toNat (xs.length - 1))
  | .restart => (.bool true, 0)
  | .position => (.num p, p)

/-- The results of a sequence of calls. -/
def tapeRun (xs : List (List Byte)) (p : Nat) : List ROp → List RVal
  | [] => []
  | o :: os => (tapeStep xs p o).1 :: tapeRun xs (tapeStep xs p o).2 os

/-- The bytes of a float in memory. -/
def bytesOf (x : BitVec 32) : List Byte := [x.extractLsb' 0 8, x.extractLsb' 8 8, x.extractLsb' 16 8, x.extractLsb' 24 8]

/-- Opening a file with these bytes gives a reader with the given numbers of channels and samples per second, whose calls behave like those on a tape with
the samples `xs`. -/
def OpensAs (file : List Byte) (channels rate : Nat) (xs : List (BitVec 32)) : Prop :=
  ∃ w, init file = some w ∧ w.channels = channels ∧ w.rate = rate ∧ w.total = xs.length ∧
    ∀ ops, readerRun w ops = .ok (some (tapeRun (xs.map bytesOf) 0 ops))

/-- The file after a crash: the first `k` bytes that were written (and seeks) have taken effect. -/
def crashFile (channels rate : Nat) (blocks : List (List (BitVec 32))) (k : Nat) : List Byte :=
  (fileAfter (((session channels rate blocks).flatMap FileOp.bytewise).take k)).bytes

end WavSpec

open WavSpec

namespace DrWav

theorem bytesOf_eq (x : BitVec 32) : bytesOf x = le 4 x.toNat := by
  simp only [bytesOf, le, List.cons.injEq, and_true]
  refine ⟨?_, ?_, ?_, ?_⟩ <;>
  · apply BitVec.eq_of_toNat_eq
    simp [BitVec.extractLsb'_toNat, Nat.shiftRight_eq_div_pow]
    try omega

theorem tapeStep_le (xs : List (List Byte)) {p : Nat} (h : p ≤ xs.length) (o : ROp) : (tapeStep xs p o).2 ≤ xs.length := by
  cases o with
  | read n => exact Nat.min_le_right _ _
  | seek t => simp only [tapeStep]; split <;> omega
  | restart => exact Nat.zero_le _
  | position => exact h

theorem Good.step {w : Wav} (g : Good w) {p : Nat} (hp : p ≤ w.total) (o : ROp) :
    readerStep (stateAt w p) o = .ok (some ((tapeStep (avail w) p o).1, stateAt w (tapeStep (avail w) p o).2)) := by
  have hl := g.avail_length
  cases o with
  | read n =>
    simp only [readerStep, readerRead, tapeStep]
    rw [g.read hp, hl]
    rfl
  | seek t =>
    simp only [readerStep, tapeStep]
    rw [g.seek hp, hl]
    rfl
  | restart =>
    simp only [readerStep, tapeStep]
    rw [g.restart]
    simp [stateAt, advance_zero]
  | position =>
    simp only [readerStep, tapeStep]
    rw [g.position hp]
    rfl

theorem Good.run {w : Wav} (g : Good w) {p : Nat} (hp : p ≤ w.total) (ops : List ROp) :
    readerRun (stateAt w p) ops = .ok (some (tapeRun (avail w) p ops)) := by
  induction ops generalizing p with
  | nil => rfl
  | cons o os ih =>
    rw [readerRun, g.step hp o]
    simp only
    have h := tapeStep_le (avail w) (p := p) (by rw [g.avail_length]; exact hp) o
    rw [g.avail_length] at h
    rw [ih h]
    rfl

theorem opensAs_whead (channels rate r m : Nat) (xs : List (BitVec 32)) (hc0 : 0 < channels) (hc : channels < 16384) (hrate0 : 0 < rate)
    (hrate : rate < 4294967296) (hr : 36 ≤ r) (hr' : r < 4294967296) (hm : m ≤ xs.length) (hm' : 4 * m < 4294967296) :
    OpensAs (whead channels rate r (4 * m) ++ floatBytes xs) channels rate (xs.take m) := by
  obtain ⟨w, e, h1, h2, -, h4, g, ha⟩ := good_whead channels rate r m xs hc0 hc hrate0 hrate hr hr' hm hm'
  refine ⟨w, e, h1, h2, ?_, fun ops => ?_⟩
  · rw [h4, List.length_take]; omega
  · have := g.run (Nat.zero_le _) ops
    rw [ha] at this
    have e0 : stateAt w 0 = w := by simp [stateAt, advance_zero]
    rw [e0] at this
    rw [this]
    have : bytesOf = fun x : BitVec 32 => le 4 x.toNat := funext bytesOf_eq
    rw [this]

end DrWav

/-- **C90.** What a `wav_writer` writes, a `wav_reader` reads back: for 1 to 16383 channels, any non-zero number of samples per second, any sequence of
blocks of samples of less than 4 GiB in total, the file can be opened after closing, has the same number of channels, samples per second
and samples, and every sequence of calls on the reader gives what a tape with exactly the samples written gives, bit for bit. -/
theorem C90_round_trip (channels rate : BitVec 32) (blocks : List (List (BitVec 32)))
    (hc0 : channels ≠ 0) (hc : channels.toNat < 16384) (hrate : rate ≠ 0) (hsize : 4 * blocks.flatten.length < 2 ^ 32) :
    OpensAs (fileAfter (session channels.toNat rate.toNat blocks)).bytes channels.toNat rate.toNat blocks.flatten := by
  have hc0' : 0 < channels.toNat := Nat.pos_of_ne_zero fun h => hc0 (BitVec.eq_of_toNat_eq h)
  have hr0' : 0 < rate.toNat := Nat.pos_of_ne_zero fun h => hrate (BitVec.eq_of_toNat_eq h)
  have hr1 : rate.toNat < 4294967296 := rate.isLt
  have hs : 4 * blocks.flatten.length < 4294967296 := hsize
  have hd : dataSizeField (4 * blocks.flatten.length) = 4 * blocks.flatten.length := by
    unfold dataSizeField; rw [if_pos (by omega)]
  obtain ⟨b1, b2⟩ := riffSize_bounds (4 * blocks.flatten.length)
  rw [session_file, hd]
  have := opensAs_whead channels.toNat rate.toNat _ blocks.flatten.length blocks.flatten hc0' hc hr0' hr1 b1 b2 (Nat.le_refl _) hs
  rwa [List.take_length] at this

/-- A stereo file with blocks of different sizes. -/
example : OpensAs (fileAfter (session 2 44100 [[1, 2], [], [3, 4, 5, 6]])).bytes 2 44100 [1, 2, 3, 4, 5, 6] :=
  C90_round_trip 2 44100 _ (by decide) (by decide) (by decide) (by decide)

/-- **C90.** With 16384 to 65535 channels a file that contains samples cannot be read back: the size of a frame does not fit in its field; opening fails, or the number of samples is wrong. -/
theorem C90_channels_violation (channels rate : BitVec 32) (blocks : List (List (BitVec 32))) (hc : 16384 ≤ channels.toNat)
    (hc' : channels.toNat < 65536) (hne : blocks.flatten ≠ []) (hsize : 4 * blocks.flatten.length < 2 ^ 32) (xs : List (BitVec 32)) :
    OpensAs (fileAfter (session channels.toNat rate.toNat blocks)).bytes channels.toNat rate.toNat xs → xs ≠ blocks.flatten := by
  rintro ⟨w, e, -, -, ht, -⟩ rfl
  have hs : 4 * blocks.flatten.length < 4294967296 := hsize
  have hd : dataSizeField (4 * blocks.flatten.length) = 4 * blocks.flatten.length := by
    unfold dataSizeField; rw [if_pos (by omega)]
  obtain ⟨b1, b2⟩ := riffSize_bounds (4 * blocks.flatten.length)
  rw [session_file, init_whead _ _ _ _ _ channels.isLt rate.isLt b2 (by omega), hd] at e
  have h0 : 0 < blocks.flatten.length := List.length_pos_iff.2 hne
  generalize blocks.flatten.length = n at *
  generalize channels.toNat = c at *
  have hm : c % 65536 = c := Nat.mod_eq_of_lt hc'
  rw [hm] at e
  have hal : 4 * c % 65536 < 2 * c := by omega
  generalize 4 * c % 65536 = a at *
  have hb : a / c < 2 := Nat.div_lt_of_lt_mul (by omega)
  generalize a / c = b at *
  split at e
  · exact absurd e (by simp)
  · rename_i hn
    simp only [not_or] at hn
    have := Option.some.inj e
    rw [← this] at ht
    simp only at ht
    have h : b = 1 := by omega
    subst h
    omega

/-- **C90.** With a number of channels that is a multiple of 16384 the file cannot be opened at all. -/
theorem C90_unreadable_violation (k : Nat) (channels rate : BitVec 32) (blocks : List (List (BitVec 32))) (hk : channels.toNat = 16384 * k) :
    init (fileAfter (session channels.toNat rate.toNat blocks)).bytes = none := by
  rw [session_file, init_whead _ _ _ _ _ channels.isLt rate.isLt (riffSize_bounds _).2 (dataSizeField_bounds _).1, if_pos]
  right; right; right
  have : 4 * channels.toNat % 65536 = 0 := by omega
  rw [this, Nat.zero_div]

/-- **C90.** With zero channels or zero samples per second, the writer accepts the samples, and the file cannot be opened. -/
theorem C90_zero_violation (channels rate : BitVec 32) (blocks : List (List (BitVec 32))) (h : channels = 0 ∨ rate = 0) :
    init (fileAfter (session channels.toNat rate.toNat blocks)).bytes = none := by
  rw [session_file, init_whead _ _ _ _ _ channels.isLt rate.isLt (riffSize_bounds _).2 (dataSizeField_bounds _).1, if_pos]
  rcases h with h | h
  · subst h; right; right; left; rfl
  · subst h; right; left; rfl

/-- **C90.** From 4 GiB of samples on, the file opens but has lost everything from sample 2^30 - 1 on, and the first `seek` fails an assertion. -/
theorem C90_size_violation (channels rate : BitVec 32) (blocks : List (List (BitVec 32)))
    (hc0 : channels ≠ 0) (hc : channels.toNat < 16384) (hrate : rate ≠ 0) (hsize : 2 ^ 32 ≤ 4 * blocks.flatten.length) :
    ∃ w, init (fileAfter (session channels.toNat rate.toNat blocks)).bytes = some w ∧ w.total = 2 ^ 30 - 1 ∧
      ∀ t, readerStep w (.seek t) = .error .assertFail := by
  have hc0' : 0 < channels.toNat := Nat.pos_of_ne_zero fun h => hc0 (BitVec.eq_of_toNat_eq h)
  have hr0' : 0 < rate.toNat := Nat.pos_of_ne_zero fun h => hrate (BitVec.eq_of_toNat_eq h)
  have hs : 4294967296 ≤ 4 * blocks.flatten.length := hsize
  have hd : dataSizeField (4 * blocks.flatten.length) = 4294967295 := by
    unfold dataSizeField; rw [if_neg (by omega)]
  obtain ⟨b1, b2⟩ := riffSize_bounds (4 * blocks.flatten.length)
  have h1 : channels.toNat % 65536 = channels.toNat := Nat.mod_eq_of_lt (by omega)
  have h2 : 4 * channels.toNat % 65536 = 4 * channels.toNat := Nat.mod_eq_of_lt (by omega)
  have h3 : 4 * channels.toNat / channels.toNat = 4 := Nat.mul_div_cancel _ hc0'
  have e := init_whead channels.toNat rate.toNat (riffSize (4 * blocks.flatten.length)) 4294967295 (floatBytes blocks.flatten)
    channels.isLt rate.isLt b2 (by omega)
  rw [h1, h2, h3, if_neg (by omega)] at e
  rw [session_file, hd]
  refine ⟨_, e, rfl, fun t => ?_⟩
  simp only [readerStep, seek]
  rw [if_neg (by simp), if_neg (by decide), if_pos (by norm_num)]
  rfl

/-- Such blocks exist. -/
example : ∃ blocks : List (List (BitVec 32)), 2 ^ 32 ≤ 4 * blocks.flatten.length := by
  refine ⟨List.replicate (2 ^ 30) [0], ?_⟩
  have : (List.replicate (2 ^ 30) [(0 : BitVec 32)]).flatten.length = 2 ^ 30 := by
    rw [List.flatten_replicate_singleton, List.length_replicate]
  rw [this]
  norm_num

/-! ## Crashes -/

namespace DrWav

theorem take_step {a b : List Byte} {k : Nat} (h : a.length ≤ k) : (a ++ b).take k = a ++ b.take (k - a.length) := by
  rw [List.take_append, List.take_of_length_le h]

/-- An incomplete header cannot be opened. -/
theorem init_short (ch rate avg align k : Nat) (hk : k < 44) : init ((header 3 ch rate avg align 32 36 0).take k) = none := by
  have e0 : ∀ b : List Byte, (⟨b, 0⟩ : File) = atPos [] b := fun _ => rfl
  unfold init
  simp only [e0]
  unfold header
  by_cases h1 : k < 4
  · rw [readN_short (by rw [List.length_take]; omega)]; rfl
  rw [take_step (by rw [len_RIFF]; omega), readN_at len_RIFF]
  simp only [Option.bind_eq_bind, Option.bind_some, ne_eq, not_true_eq_false, if_false, pure, len_RIFF]
  by_cases h2 : k < 8
  · rw [readN_short (by rw [List.length_take]; omega)]; rfl
  rw [take_step (by rw [le_length]; omega), readN_at (le_length _ _)]
  simp only [Option.bind_some, leNat_le, le_length]
  rw [if_neg (by norm_num)]
  by_cases h3 : k < 12
  · rw [readN_short (by rw [List.length_take]; omega)]; rfl
  rw [take_step (by rw [len_WAVE]; omega), readN_at len_WAVE]
  simp only [Option.bind_some, not_true_eq_false, if_false, len_WAVE]
  by_cases h4 : k < 20
  · unfold readFmt
    rw [findFmt_eq, readChunkHeader_short (by rw [List.length_take]; omega)]; rfl
  by_cases h5 : k < 36
  · unfold readFmt
    rw [take_step (by rw [len_fmt]; omega), take_step (by rw [le_length, len_fmt]; omega), findFmt_eq, readChunkHeader_at len_fmt (le_length _ _)]
    simp only [Option.bind_eq_bind, Option.bind_some, if_true]
    rw [readN_short (by rw [List.length_take, le_length, len_fmt]; omega)]
    rfl
  have e : fourcc "fmt " ++ (le 4 16 ++ (le 2 3 ++ (le 2 ch ++ (le 4 rate ++ (le 4 avg ++ (le 2 align ++ (le 2 32 ++ (fourcc "data" ++ le 4 0)))))))) =
      (fourcc "fmt " ++ (le 4 16 ++ (le 2 3 ++ (le 2 ch ++ (le 4 rate ++ (le 4 avg ++ (le 2 align ++ le 2 32))))))) ++ (fourcc "data" ++ le 4 0) := by
    simp [List.append_assoc]
  have e' : (fourcc "fmt " ++ (le 4 16 ++ (le 2 3 ++ (le 2 ch ++ (le 4 rate ++ (le 4 avg ++ (le 2 align ++ le 2 32))))))).length = 24 := by simp
  rw [e, take_step (by rw [e']; omega), e']
  simp only [List.append_assoc]
  rw [readFmt_at]
  simp only [Option.bind_some]
  by_cases hz : rate % 4294967296 = 0 ∨ ch % 65536 = 0 ∨ 32 % 65536 = 0 ∨ align % 65536 = 0
  · rw [if_pos hz]; rfl
  rw [if_neg hz]
  rw [findData_eq, readChunkHeader_short (by rw [List.length_take]; omega)]
  rfl

/-- The bytes of a number of which the first `j` have been overwritten. -/
theorem mixed (a b j : Nat) : ∃ v, (le 4 a).take j ++ (le 4 b).drop j = le 4 v ∧ v < 4294967296 := by
  have hl : ((le 4 a).take j ++ (le 4 b).drop j).length = 4 := by
    rw [List.length_append, List.length_take, List.length_drop, le_length, le_length]; omega
  refine ⟨leNat ((le 4 a).take j ++ (le 4 b).drop j), ?_, ?_⟩
  · have := le_leNat ((le 4 a).take j ++ (le 4 b).drop j)
    rw [hl] at this
    exact this.symm
  · have := leNat_lt ((le 4 a).take j ++ (le 4 b).drop j)
    rw [hl] at this
    exact this

theorem mixed_zero (n j : Nat) (h : 4 * n < 4294967296) :
    ∃ m, (le 4 (4 * n)).take j ++ (le 4 0).drop j = le 4 (4 * m) ∧ m ≤ n ∧ (j = 0 → m = 0) ∧ (4 ≤ j → m = n) := by
  obtain h4 | rfl | rfl | rfl | rfl : 4 ≤ j ∨ j = 0 ∨ j = 1 ∨ j = 2 ∨ j = 3 := by omega
  · refine ⟨n, ?_, Nat.le_refl _, fun h0 => by omega, fun _ => rfl⟩
    rw [List.take_of_length_le (by rw [le_length]; omega), List.drop_eq_nil_of_le (by rw [le_length]; omega), List.append_nil]
  · exact ⟨0, rfl, by omega, fun _ => rfl, fun h => by omega⟩
  · refine ⟨(n % 64), ?_, by omega, fun h => by omega, fun h => by omega⟩
    simp only [le, List.take_succ_cons, List.take_zero, List.drop_succ_cons, List.drop_zero, List.cons_append, List.nil_append, List.cons.injEq, and_true]
    refine ⟨?_, ?_, ?_, ?_⟩ <;> · apply BitVec.eq_of_toNat_eq; simp only [BitVec.toNat_ofNat]; omega
  · refine ⟨(n % 16384), ?_, by omega, fun h => by omega, fun h => by omega⟩
    simp only [le, List.take_succ_cons, List.take_zero, List.drop_succ_cons, List.drop_zero, List.cons_append, List.nil_append, List.cons.injEq, and_true]
    refine ⟨?_, ?_, ?_, ?_⟩ <;> · apply BitVec.eq_of_toNat_eq; simp only [BitVec.toNat_ofNat]; omega
  · refine ⟨(n % 4194304), ?_, by omega, fun h => by omega, fun h => by omega⟩
    simp only [le, List.take_succ_cons, List.take_zero, List.drop_succ_cons, List.drop_zero, List.cons_append, List.nil_append, List.cons.injEq, and_true]
    refine ⟨?_, ?_, ?_, ?_⟩ <;> · apply BitVec.eq_of_toNat_eq; simp only [BitVec.toNat_ofNat]; omega

/-- Overwriting only the first `j` bytes. -/
theorem foldl_over_take (a b b' c : List Byte) (h : b.length = b'.length) (j : Nat) :
    (((b'.map fun x => FileOp.write [x]).take j).foldl FileOp.apply ⟨a ++ (b ++ c), a.length⟩).bytes = a ++ ((b'.take j ++ b.drop j) ++ c) := by
  rw [← List.map_take]
  have e : b ++ c = b.take j ++ (b.drop j ++ c) := by rw [← List.append_assoc, List.take_append_drop]
  rw [e, foldl_over a (b.take j) (b'.take j) _ (by rw [List.length_take, List.length_take, h])]
  simp [List.append_assoc]

theorem bytewise_writes (cs : List (List Byte)) : (cs.map FileOp.write).flatMap FileOp.bytewise = (cs.flatten.map fun x => [x]).map FileOp.write := by
  induction cs with
  | nil => rfl
  | cons c cs ih =>
    rw [List.map_cons, List.flatMap_cons, ih, List.flatten_cons]
    simp only [FileOp.bytewise, List.map_append, List.map_map]
    rfl

theorem flatten_singletons (b : List Byte) : (b.map fun x => [x]).flatten = b := by
  induction b with
  | nil => rfl
  | cons x b ih => simp [ih]

/-- The state of the file at a crash. -/
theorem crash_cases (channels rate : Nat) (blocks : List (List (BitVec 32))) (k : Nat) :
    (k ≤ 44 + 4 * blocks.flatten.length ∧
      crashFile channels rate blocks k = (whead channels rate 36 0 ++ floatBytes blocks.flatten).take k) ∨
    (44 + 4 * blocks.flatten.length < k ∧ k ≤ 49 + 4 * blocks.flatten.length ∧
      ∃ r < 4294967296, crashFile channels rate blocks k = whead channels rate r 0 ++ floatBytes blocks.flatten) ∨
    (49 + 4 * blocks.flatten.length < k ∧
      ∃ t, t.length = 40 ∧ (∀ d', whead channels rate (riffSize (4 * blocks.flatten.length)) d' = t ++ le 4 d') ∧
      crashFile channels rate blocks k = t ++ (((le 4 (dataSizeField (4 * blocks.flatten.length))).take (k - (50 + 4 * blocks.flatten.length)) ++
        (le 4 0).drop (k - (50 + 4 * blocks.flatten.length))) ++ floatBytes blocks.flatten)) := by
  have hB := floatBytes_length blocks.flatten
  have hH := whead_length channels rate 36 0
  have eB : (headBlocks channels rate ++ dataBlocks blocks).flatten = whead channels rate 36 0 ++ floatBytes blocks.flatten := by
    rw [List.flatten_append, headBlocks_flatten, dataBlocks_flatten]
  unfold crashFile fileAfter session
  rw [floatBytes_length, closeWrite_eq, initWrite_eq, writeBlocks_eq, ← List.map_append, List.flatMap_append, bytewise_writes, eB]
  generalize floatBytes blocks.flatten = data at hB
  generalize hn : blocks.flatten.length = n at *
  have hL : (whead channels rate 36 0 ++ data).length = 44 + 4 * n := by rw [List.length_append, hH, hB]
  have hL2 : (((whead channels rate 36 0 ++ data).map fun x => [x]).map FileOp.write).length = 44 + 4 * n := by simp only [List.length_map]; exact hL
  have hz : (⟨[], 0⟩ : File) = ⟨[], ([] : List Byte).length⟩ := rfl
  rcases Nat.lt_or_ge (44 + 4 * n) k with hk | hk
  swap
  · left
    refine ⟨hk, ?_⟩
    rw [List.take_append_of_le_length (by rw [hL2]; exact hk), ← List.map_take, ← List.map_take, hz, foldl_writes, flatten_singletons, List.nil_append]
  right
  rw [List.take_append, List.take_of_length_le (by rw [hL2]; omega), List.foldl_append, hz, foldl_writes, flatten_singletons, List.nil_append, hL2]
  generalize riffSize (4 * n) = R
  generalize dataSizeField (4 * n) = D
  obtain ⟨i, rfl⟩ : ∃ i, k = 44 + 4 * n + (i + 1) := ⟨k - (44 + 4 * n) - 1, by omega⟩
  rw [Nat.add_sub_cancel_left]
  simp only [List.flatMap_cons, List.flatMap_nil, List.append_nil, FileOp.bytewise, List.cons_append, List.nil_append, List.take_succ_cons, List.foldl_cons, seek_apply]
  obtain ⟨t, ht⟩ := whead_split4 channels rate 36 0
  have eH : whead channels rate 36 0 ++ data = fourcc "RIFF" ++ (le 4 36 ++ (t ++ data)) := by rw [ht 36, List.append_assoc, List.append_assoc]
  rw [eH]
  have hml : ((le 4 R).map fun x => FileOp.write [x]).length = 4 := by rw [List.length_map, le_length]
  rcases Nat.lt_or_ge 4 i with hi | hi
  swap
  · left
    refine ⟨by omega, by omega, ?_⟩
    rw [List.take_append_of_le_length (by rw [hml]; exact hi)]
    have := foldl_over_take (fourcc "RIFF") (le 4 36) (le 4 R) (t ++ data) (by simp) i
    rw [len_RIFF] at this
    rw [this]
    obtain ⟨v, hv, hv'⟩ := mixed R 36 i
    exact ⟨v, hv', by rw [hv, ht v, List.append_assoc, List.append_assoc]⟩
  right
  refine ⟨by omega, ?_⟩
  rw [List.take_append, List.take_of_length_le (by rw [hml]; omega), List.foldl_append]
  have h4 := foldl_over (fourcc "RIFF") (le 4 36) (le 4 R) (t ++ data) (by simp)
  rw [len_RIFF] at h4
  rw [h4, hml]
  obtain ⟨j, rfl⟩ : ∃ j, i = 4 + (j + 1) := ⟨i - 5, by omega⟩
  rw [Nat.add_sub_cancel_left]
  simp only [List.take_succ_cons, List.foldl_cons, seek_apply]
  obtain ⟨u, hu, hu'⟩ := whead_split40 channels rate R 0
  refine ⟨u, hu, hu', ?_⟩
  have e : fourcc "RIFF" ++ (le 4 R ++ (t ++ data)) = u ++ (le 4 0 ++ data) := by
    rw [← List.append_assoc (le 4 R), ← List.append_assoc (fourcc "RIFF"), ← ht R, hu' 0, List.append_assoc]
  rw [e]
  have h40 := foldl_over_take u (le 4 0) (le 4 D) data (by simp) j
  rw [hu] at h40
  rw [h40]
  have : 44 + 4 * n + (4 + (j + 1) + 1) - (50 + 4 * n) = j := by omega
  rw [this]

end DrWav

/-- **C91.** Crash safety of `wav_writer`: whatever number `k` of bytes (and seeks) had reached the file when the program died, opening the file fails, or gives
a reader with the right numbers of channels and samples per second whose samples are a prefix of the samples written. Before closing
begins, no sample is delivered. -/
theorem C91_crash (channels rate : BitVec 32) (blocks : List (List (BitVec 32)))
    (hc0 : channels ≠ 0) (hc : channels.toNat < 16384) (hrate : rate ≠ 0) (hsize : 4 * blocks.flatten.length < 2 ^ 32) (k : Nat) :
    init (crashFile channels.toNat rate.toNat blocks k) = none ∨
    ∃ m ≤ blocks.flatten.length, OpensAs (crashFile channels.toNat rate.toNat blocks k) channels.toNat rate.toNat (blocks.flatten.take m) ∧
      (k ≤ 44 + 4 * blocks.flatten.length → m = 0) := by
  have hc0' : 0 < channels.toNat := Nat.pos_of_ne_zero fun h => hc0 (BitVec.eq_of_toNat_eq h)
  have hr0' : 0 < rate.toNat := Nat.pos_of_ne_zero fun h => hrate (BitVec.eq_of_toNat_eq h)
  have hr1 : rate.toNat < 4294967296 := rate.isLt
  have hs : 4 * blocks.flatten.length < 4294967296 := hsize
  have hd : dataSizeField (4 * blocks.flatten.length) = 4 * blocks.flatten.length := by
    unfold dataSizeField; rw [if_pos (by omega)]
  obtain ⟨b1, b2⟩ := riffSize_bounds (4 * blocks.flatten.length)
  rcases crash_cases channels.toNat rate.toNat blocks k with ⟨hk, e⟩ | ⟨-, -, r, hr, e⟩ | ⟨hk, t, htl, ht, e⟩
  · rcases Nat.lt_or_ge k 44 with h44 | h44
    · left
      rw [e, List.take_append_of_le_length (by rw [whead_length]; omega)]
      exact init_short _ _ _ _ _ h44
    · rw [e, take_step (by rw [whead_length]; exact h44), whead_length]
      -- the data bytes present are those of some samples, and possibly a part of one more: the reader does not look at them
      right
      refine ⟨0, Nat.zero_le _, ?_, fun _ => rfl⟩
      have h1 : channels.toNat % 65536 = channels.toNat := Nat.mod_eq_of_lt (by omega)
      have h2 : 4 * channels.toNat % 65536 = 4 * channels.toNat := Nat.mod_eq_of_lt (by omega)
      have h3 : 4 * channels.toNat / channels.toNat = 4 := Nat.mul_div_cancel _ hc0'
      have e2 := init_whead channels.toNat rate.toNat 36 0 ((floatBytes blocks.flatten).take (k - 44)) (by omega) hr1 (by omega) (by omega)
      rw [h1, h2, h3, if_neg (by omega)] at e2
      refine ⟨_, e2, rfl, rfl, rfl, fun ops => ?_⟩
      have g : Good ⟨⟨whead channels.toNat rate.toNat 36 0 ++ (floatBytes blocks.flatten).take (k - 44), 44⟩, 3, rate.toNat, channels.toNat, 32, 4, 0 / 4, 0, 44, 0, 4 * channels.toNat⟩ := by
        refine ⟨Or.inr (Or.inl rfl), by simp, by simp, by simp, by simp, rfl, toI32_small (by simp), by simp, ?_⟩
        simp only [List.length_append, whead_length]
        omega
      have h := g.run (Nat.zero_le _) ops
      have e0 : ∀ w : Wav, stateAt w 0 = w := fun w => by simp [stateAt, advance_zero]
      have ha : avail ⟨⟨whead channels.toNat rate.toNat 36 0 ++ (floatBytes blocks.flatten).take (k - 44), 44⟩, 3, rate.toNat, channels.toNat, 32, 4, 0 / 4, 0, 44, 0, 4 * channels.toNat⟩ = [] := by
        apply List.eq_nil_of_length_eq_zero
        rw [g.avail_length]
      rw [e0, ha] at h
      exact h
  · rcases Nat.lt_or_ge r 36 with h36 | h36
    · left
      rw [e, init_whead _ _ _ _ _ channels.isLt hr1 hr (by omega), if_pos (Or.inl h36)]
    · right
      refine ⟨0, Nat.zero_le _, ?_, fun _ => rfl⟩
      rw [e]
      exact opensAs_whead _ _ r 0 _ hc0' hc hr0' hr1 h36 hr (Nat.zero_le _) (by omega)
  · right
    rw [hd] at e
    obtain ⟨m, em, hm, -, -⟩ := mixed_zero blocks.flatten.length (k - (50 + 4 * blocks.flatten.length)) hs
    refine ⟨m, hm, ?_, fun h => by omega⟩
    rw [e, em, ← List.append_assoc, ← ht]
    exact opensAs_whead _ _ _ m _ hc0' hc hr0' hr1 b1 b2 hm (by omega)

/-- **C91.** Without a crash (all `54 + 4 n` steps done) the file is the one of `C90_round_trip`. -/
theorem C91_complete (channels rate : BitVec 32) (blocks : List (List (BitVec 32))) (k : Nat) (hk : 54 + 4 * blocks.flatten.length ≤ k) :
    crashFile channels.toNat rate.toNat blocks k = (fileAfter (session channels.toNat rate.toNat blocks)).bytes := by
  rcases crash_cases channels.toNat rate.toNat blocks k with ⟨h, e⟩ | ⟨-, h, -⟩ | ⟨-, t, htl, ht, e⟩
  · omega
  · omega
  · rw [e, session_file, ht, List.take_of_length_le (by rw [le_length]; omega), List.drop_eq_nil_of_le (by rw [le_length]; omega), List.append_nil,
      List.append_assoc]

/-- **C91.** During the last four bytes some, but not all, samples can be delivered: 65 samples, crash after the first byte of the size. -/
theorem C91_prefix_example : ∃ blocks : List (List (BitVec 32)), blocks.flatten.length = 65 ∧
    OpensAs (crashFile 1 44100 blocks (50 + 4 * 65 + 1)) 1 44100 (blocks.flatten.take 1) := by
  refine ⟨[List.replicate 65 7], by simp, ?_⟩
  have hl : ([List.replicate 65 (7 : BitVec 32)]).flatten.length = 65 := by simp
  rcases crash_cases 1 44100 [List.replicate 65 7] (50 + 4 * 65 + 1) with ⟨h, e⟩ | ⟨-, h, -⟩ | ⟨-, t, htl, ht, e⟩
  · rw [hl] at h; omega
  · rw [hl] at h; omega
  · rw [e, hl]
    have : (le 4 (dataSizeField (4 * 65))).take (50 + 4 * 65 + 1 - (50 + 4 * 65)) ++ (le 4 0).drop (50 + 4 * 65 + 1 - (50 + 4 * 65)) = le 4 (4 * 1) := by
      decide
    rw [this, ← List.append_assoc, ← ht]
    exact opensAs_whead 1 44100 _ 1 _ (by omega) (by omega) (by omega) (by omega) (riffSize_bounds _).1 (riffSize_bounds _).2 (by simp) (by omega)

/-! ## The abstract reader of `wav_memory` -/

/-- **C63.** The abstract reader over which `wav_memory` is verified is what the byte-level reader does: on every complete PCM or float file (`Good`), in every state,
reading, restarting and seeking to an existing sample do the same in both. -/
theorem C63_reader (w : Wav) (g : Good w) (p : Nat) (hp : p ≤ w.total) :
    (∀ n : BitVec 32, readerRead (stateAt w p) n =
      some ((Wav.Reader.read ⟨avail w, p, w.channels⟩ n.toNat).1, stateAt w (Wav.Reader.read ⟨avail w, p, w.channels⟩ n.toNat).2.pos)) ∧
    restart (stateAt w p) = some (stateAt w (Wav.Reader.restart (⟨avail w, p, w.channels⟩ : Wav.Reader (List Byte))).pos) ∧
    (∀ t, t < w.total → seek (stateAt w p) t =
      .ok (some (true, stateAt w (Wav.Reader.seek (⟨avail w, p, w.channels⟩ : Wav.Reader (List Byte)) t).pos))) := by
  refine ⟨fun n => ?_, ?_, fun t ht => ?_⟩
  · unfold readerRead Wav.Reader.read
    simp only
    rw [g.read hp, Nat.mod_eq_of_lt n.isLt, g.avail_length]
  · rw [g.restart]
    simp [Wav.Reader.restart, Wav.Reader.seek, stateAt, advance_zero]
  · rw [g.seek hp, if_neg (by omega), Nat.min_eq_left (by omega)]
    rfl

/-- Every file of `C90_round_trip` is such a file. -/
example : ∃ w, init (fileAfter (session 2 44100 [[1, 2], [3, 4]])).bytes = some w ∧ Good w := by
  have := good_whead 2 44100 (riffSize 16) 4 [1, 2, 3, 4] (by omega) (by omega) (by omega) (by omega) (riffSize_bounds _).1 (riffSize_bounds _).2 (by simp) (by omega)
  obtain ⟨w, e, -, -, -, -, g, -⟩ := this
  refine ⟨w, ?_, g⟩
  rw [session_file]
  exact e

end Verif
