import Verif.Proof.DrWavOpen
import Verif.Props.WavFile
/-!
# C92: opening arbitrary files
-/
namespace Verif
open DrWav

namespace WavSpec

/-- The samples of `bps` bytes in the beginning of a list of bytes. -/
def samplesOf (bps : Nat) : List Byte → List (List Byte)
  | [] => []
  | x :: b => if 0 < bps ∧ bps ≤ (x :: b).length then (x :: b).take bps :: samplesOf bps ((x :: b).drop bps) else []
termination_by b => b.length
decreasing_by
  rename_i h
  rw [List.length_drop]
  omega

/-- The bytes of the data chunk that a reader was opened on: the reader is positioned after a header `data` with this size; the chunk may be cut off by the end of the file. -/
def DataChunk (bytes : List Byte) (w : Wav) (data : List Byte) : Prop :=
  ∃ a b, bytes = a ++ (fourcc "data" ++ (le 4 w.dataSize ++ b)) ∧ data = b.take w.dataSize ∧ w.dataSize < 2 ^ 32 ∧ w.file = ⟨bytes, a.length + 8⟩ ∧
    w.remaining = w.dataSize

/-- Successive reads of the given lengths: the samples delivered by each; `none`: not modelled. -/
def readMany (w : Wav) : List (BitVec 32) → Option (List (List (List Byte)))
  | [] => some []
  | n :: ns => (readerRead w n).bind fun r => (readMany r.2 ns).map (r.1 :: ·)

/-- What successive reads of the given lengths deliver from a list. -/
def slices (xs : List (List Byte)) : List (BitVec 32) → List (List (List Byte))
  | [] => []
  | n :: ns => xs.take n.toNat :: slices (xs.drop n.toNat) ns

end WavSpec

open WavSpec

namespace DrWav

theorem groups_eq_samplesOf (s : Nat) (hs : 0 < s) (b : List Byte) : groups s (b.length / s) b = samplesOf s b := by
  induction hn : b.length using Nat.strong_induction_on generalizing b with
  | _ n ih =>
    cases b with
    | nil => subst hn; simp [groups, samplesOf]
    | cons x t =>
      rw [samplesOf]
      by_cases h : s ≤ (x :: t).length
      · rw [if_pos ⟨hs, h⟩]
        have hd : n / s = (n - s) / s + 1 := by
          rw [← hn, Nat.div_eq_sub_div hs h]
        have hl : ((x :: t).drop s).length = n - s := by rw [List.length_drop, hn]
        have := ih (n - s) (by omega) ((x :: t).drop s) hl
        rw [hd, groups, this]
      · rw [if_neg (by omega), Nat.div_eq_of_lt (by omega)]
        rfl

theorem chunk_of_dataChunk {bytes : List Byte} {w : Wav} {data : List Byte} (h : DataChunk bytes w data) : chunk w = data := by
  obtain ⟨a, b, e, rfl, -, hf, hr⟩ := h
  unfold chunk
  rw [hf, hr]
  simp only
  rw [e, ← List.append_assoc, ← List.append_assoc, List.drop_left' (by simp)]

theorem readMany_eq (w : Wav) (ns : List (BitVec 32)) (ht : Plain w) (hs : 0 < w.bps) (hs' : w.bps ≤ 4096) :
    readMany w ns = some (slices (avail w) ns) := by
  induction ns generalizing w with
  | nil => rfl
  | cons n ns ih =>
    unfold readMany readerRead
    rw [readF32_eq w _ ht hs hs']
    simp only [Option.bind_some]
    rw [ih (advance w _) ht hs hs']
    have : avail (advance w (min (n.toNat * w.bps) (chunk w).length)) = (avail w).drop n.toNat := by
      rcases Nat.le_total (n.toNat * w.bps) (chunk w).length with h | h
      · rw [Nat.min_eq_left h, avail_advance]
      · rw [Nat.min_eq_right h]
        have hc0 : chunk (advance w (chunk w).length) = [] := by rw [chunk_advance, List.drop_length]
        have ha0 : avail (advance w (chunk w).length) = [] := by
          apply List.eq_nil_of_length_eq_zero
          rw [avail_length, hc0]; simp
        rw [ha0, List.drop_eq_nil_of_le]
        rw [avail_length]
        exact Nat.div_le_of_le_mul (by rw [Nat.mul_comm]; exact h)
    rw [this]
    rfl

end DrWav

/-- **C92.** Opening any file whatsoever terminates (it is a total function) and either fails, or gives a reader positioned at the beginning of the contents of a chunk `data` of the
file, with at least one channel and one sample per second and, unless the format is ADPCM, at least one byte per sample and the number of
samples that fit in the chunk. -/
theorem C92_open (bytes : List Byte) : init bytes = none ∨ ∃ w data, init bytes = some w ∧ DataChunk bytes w data ∧
    1 ≤ w.channels ∧ w.channels < 2 ^ 16 ∧ 1 ≤ w.rate ∧ w.rate < 2 ^ 32 ∧
    (compressed w.tag = false → 1 ≤ w.bps ∧ w.total = w.dataSize / w.bps) := by
  cases e : init bytes with
  | none => exact Or.inl rfl
  | some w =>
    right
    obtain ⟨h1, h2, h3, h4, h5, h6, h7, h8, -, ⟨a, b, h9, h10⟩, -⟩ := init_spec e
    refine ⟨w, b.take w.dataSize, rfl, ⟨a, b, h9, rfl, h6, ?_, h7⟩, h2, h3, h4, h5, fun hc => ?_⟩
    · rw [← h10, ← h1]
    · obtain ⟨i1, -, i3⟩ := h8 hc
      exact ⟨i1, i3⟩

/-- **C92.** Every sequence of reads from a PCM or float file delivers the samples of the data chunk, in order, each once, and nothing else; when the file is cut off, the
samples that are completely there. (For up to 4096 bytes per sample; see `C92_big_violation`.) -/
theorem C92_reads (bytes : List Byte) (w : Wav) (e : init bytes = some w) (ht : Plain w) (hb : w.bps ≤ 4096)
    (data : List Byte) (hd : DataChunk bytes w data) (ns : List (BitVec 32)) :
    readMany w ns = some (slices (samplesOf w.bps data) ns) := by
  obtain ⟨-, -, -, -, -, -, -, h8, -⟩ := init_spec e
  have hc := ht.compressed
  obtain ⟨i1, -⟩ := h8 hc
  rw [readMany_eq w ns ht i1 hb, avail, groups_eq_samplesOf _ i1, chunk_of_dataChunk hd]

/-- **C92.** In a file of less than 2 GiB, `restart()` goes back to the state after opening, whatever was done before. -/
theorem C92_restart (bytes : List Byte) (w : Wav) (e : init bytes = some w) (hl : bytes.length < 2 ^ 31) (p remaining : Nat) :
    restart { w with file := ⟨bytes, p⟩, remaining := remaining } = some w := by
  obtain ⟨h1, -, -, -, -, -, h7, -, -, -, h11⟩ := init_spec e
  unfold restart fseekSet
  simp only
  rw [h11 hl, if_pos (by omega)]
  simp only [Option.map_some, Int.toNat_natCast]
  obtain ⟨⟨_, _⟩, _, _, _, _, _, _, _, _, _, _⟩ := w
  simp only at h1 h7
  subst h1 h7
  rfl

/-- **C92.** In a PCM or float file of less than 2 GiB whose data chunk is complete and contains a whole number of samples, whatever its other chunks are, every sequence of calls behaves like a tape. -/
theorem C92_tape (bytes : List Byte) (w : Wav) (e : init bytes = some w) (ht : Plain w) (hb : w.bps ≤ 4096)
    (hl : bytes.length < 2 ^ 31) (data : List Byte) (hd : DataChunk bytes w data) (hdl : data.length = w.dataSize) (hm : w.dataSize % w.bps = 0)
    (ops : List ROp) : readerRun w ops = .ok (some (tapeRun (samplesOf w.bps data) 0 ops)) := by
  obtain ⟨h1, -, -, -, -, h6, h7, h8, -, -, h11⟩ := init_spec e
  have hc := ht.compressed
  obtain ⟨i1, -, i3⟩ := h8 hc
  have hch := chunk_of_dataChunk hd
  obtain ⟨a, b, e2, rfl, -, hf, hr⟩ := hd
  have hbl : w.dataSize ≤ b.length := by rw [List.length_take] at hdl; omega
  have hlen : bytes.length = a.length + 8 + b.length := by rw [e2]; simp; omega
  have hl' : bytes.length < 2147483648 := hl
  have hpos : w.file.pos = a.length + 8 := by rw [hf]
  have g : Good w := ⟨ht, i1, hb, by rw [i3, Nat.div_mul_cancel (Nat.dvd_of_mod_eq_zero hm)], h6, h7, h11 hl, by omega, by rw [h1]; omega⟩
  have := g.run (Nat.zero_le _) ops
  have e0 : stateAt w 0 = w := by simp [stateAt, advance_zero]
  rw [e0, avail, groups_eq_samplesOf _ i1, hch] at this
  exact this

/-- **C92.** When the size of the data chunk is not a multiple of the size of a sample (but at least one sample is there), `seek` fails an assertion directly after
opening, whatever the target. -/
theorem C92_seek_violation (bytes : List Byte) (w : Wav) (e : init bytes = some w) (hc : compressed w.tag = false) (h1 : w.bps ≤ w.dataSize)
    (hm : w.dataSize % w.bps ≠ 0) (t : BitVec 64) : readerStep w (.seek t) = .error .assertFail := by
  obtain ⟨-, -, -, -, -, -, h7, h8, -⟩ := init_spec e
  obtain ⟨i1, -, i3⟩ := h8 hc
  have hpos : 0 < w.total := by rw [i3]; exact Nat.div_pos h1 i1
  have hlt : w.total * w.bps < w.remaining := by
    rw [i3, h7]
    have := Nat.div_add_mod w.dataSize w.bps
    rw [Nat.mul_comm] at this
    omega
  simp only [readerStep, seek]
  rw [if_neg (by omega), hc, if_neg (by simp), if_pos hlt]
  rfl

/-- **C92.** `position()` divides by zero in ADPCM files. -/
theorem C92_position_violation (bytes : List Byte) (w : Wav) (e : init bytes = some w) (hc : compressed w.tag = true) :
    readerStep w .position = .error .divByZero := by
  obtain ⟨-, -, -, -, -, -, -, -, h9, -⟩ := init_spec e
  simp only [readerStep, position]
  rw [if_pos (h9 hc).1]
  rfl

/-- **C92.** A PCM file with more than 4096 bytes per sample can be opened, but delivers no samples. -/
theorem C92_big_violation (w : Wav) (ht : w.tag = 1) (hb : 4096 < w.bps) (n : BitVec 32) : readerRead w n = some ([], w) := by
  unfold readerRead readF32
  by_cases h0 : n.toNat = 0
  · rw [if_pos h0]
  rw [if_neg h0, if_neg (by omega), if_pos (Or.inl ht), if_neg (by omega), readLoop, if_neg h0, Nat.div_eq_of_lt hb, Nat.min_zero]
  simp [DrWav.read]

/-! ## Other chunks -/

namespace WavSpec

/-- A chunk of a RIFF file. -/
structure RiffChunk where
  id : List Byte
  body : List Byte

/-- Its encoding: identifier, size, contents, padding to an even size. -/
def RiffChunk.encode (c : RiffChunk) : List Byte := c.id ++ (le 4 c.body.length ++ (c.body ++ List.replicate (c.body.length % 2) 0))

/-- The format chunk. -/
def fmtChunk (tag ch rate avg align bits : Nat) : List Byte :=
  fourcc "fmt " ++ (le 4 16 ++ (le 2 tag ++ (le 2 ch ++ (le 4 rate ++ (le 4 avg ++ (le 2 align ++ le 2 bits))))))

/-- A WAV file with other chunks before and after the format chunk, and after the data. -/
def wavWith (before after : List RiffChunk) (tag ch rate avg align bits r : Nat) (data rest : List Byte) : List Byte :=
  fourcc "RIFF" ++ (le 4 r ++ (fourcc "WAVE" ++ (before.flatMap RiffChunk.encode ++ (fmtChunk tag ch rate avg align bits ++
    (after.flatMap RiffChunk.encode ++ (fourcc "data" ++ (le 4 data.length ++ (data ++ rest))))))))

end WavSpec

namespace DrWav

theorem seekFuel_ok (k : Nat) (f : File) (o : Nat) (hk : o ≤ k) (hp : f.pos + o < 2 ^ 63) : seekFuel k f o = (true, { f with pos := f.pos + o }) := by
  induction k generalizing f o with
  | zero =>
    have : o = 0 := by omega
    subst this; rfl
  | succ k ih =>
    rw [seekFuel]
    by_cases h0 : o = 0
    · rw [if_pos h0, h0]; rfl
    rw [if_neg h0]
    have hi := intMax_pos
    by_cases hb : intMax < o
    · rw [if_pos hb, fseekCur_ok _ _ (by omega)]
      simp only
      rw [ih _ _ (by omega) (by simp only; omega)]
      simp only [Prod.mk.injEq, File.mk.injEq, true_and]
      omega
    · rw [if_neg hb, fseekCur_ok _ _ (by omega)]

theorem seekForward_ok (f : File) (o : Nat) (hp : f.pos + o < 2 ^ 63) : seekForward f o = (true, { f with pos := f.pos + o }) :=
  seekFuel_ok o f o (Nat.le_refl _) hp

theorem atPos_skip (pre b rest : List Byte) : ({ atPos pre (b ++ rest) with pos := (atPos pre (b ++ rest)).pos + b.length } : File) = atPos (pre ++ b) rest := by
  simp [atPos]

theorem body_length (c : RiffChunk) : (c.body ++ List.replicate (c.body.length % 2) (0 : Byte)).length = c.body.length + c.body.length % 2 := by simp

theorem encode_length (c : RiffChunk) (h : c.id.length = 4) : c.encode.length = 8 + (c.body.length + c.body.length % 2) := by
  simp [RiffChunk.encode, h]; omega

theorem findFmt_skip (c : RiffChunk) (hid : c.id.length = 4) (hne : c.id ≠ fourcc "fmt ") (hb : c.body.length < 2 ^ 32) (pre rest : List Byte) (r : Nat)
    (hp : pre.length + c.encode.length < 2 ^ 63) :
    findFmt (atPos pre (c.encode ++ rest)) r = findFmt (atPos (pre ++ c.encode) rest) (r + c.encode.length) := by
  have hb' : c.body.length < 256 ^ 4 := by norm_num; exact hb
  have hel := encode_length c hid
  conv_lhs => rw [findFmt_eq]
  have e : c.encode ++ rest = c.id ++ (le 4 c.body.length ++ ((c.body ++ List.replicate (c.body.length % 2) 0) ++ rest)) := by
    simp [RiffChunk.encode, List.append_assoc]
  rw [e, readChunkHeader_at hid (le_length _ _)]
  simp only [Option.bind_some, leNat_le, Nat.mod_eq_of_lt hb']
  rw [if_neg hne, ← body_length, seekForward_ok _ _ (by rw [body_length]; simp only [atPos, List.length_append, hid, le_length]; omega)]
  simp only [if_true]
  rw [atPos_skip, body_length, hel]
  have e2 : pre ++ c.id ++ le 4 c.body.length ++ (c.body ++ List.replicate (c.body.length % 2) 0) = pre ++ c.encode := by
    simp [RiffChunk.encode, List.append_assoc]
  rw [e2, Nat.add_assoc]

theorem findData_skip (c : RiffChunk) (hid : c.id.length = 4) (hne : c.id ≠ fourcc "data") (hfact : c.id = fourcc "fact" → 4 ≤ c.body.length)
    (hb : c.body.length < 2 ^ 32) (pre rest : List Byte) (r : Nat) (hp : pre.length + c.encode.length < 2 ^ 63) (hr : r + c.encode.length < 2 ^ 63) :
    findData (atPos pre (c.encode ++ rest)) r = findData (atPos (pre ++ c.encode) rest) (r + c.encode.length) := by
  have hb' : c.body.length < 256 ^ 4 := by norm_num; exact hb
  have hel := encode_length c hid
  have k1 : (2 : ℕ) ^ 63 < 2 ^ 64 := by norm_num
  conv_lhs => rw [findData_eq]
  have e : c.encode ++ rest = c.id ++ (le 4 c.body.length ++ ((c.body ++ List.replicate (c.body.length % 2) 0) ++ rest)) := by
    simp [RiffChunk.encode, List.append_assoc]
  rw [e, readChunkHeader_at hid (le_length _ _)]
  simp only [Option.bind_some, leNat_le, Nat.mod_eq_of_lt hb']
  rw [if_neg hne]
  have e2 : pre ++ c.id ++ le 4 c.body.length ++ (c.body ++ List.replicate (c.body.length % 2) 0) = pre ++ c.encode := by
    simp [RiffChunk.encode, List.append_assoc]
  unfold skipFact
  simp only
  by_cases hf : c.id = fourcc "fact"
  · rw [if_pos hf]
    have h4 := hfact hf
    have e3 : (c.body ++ List.replicate (c.body.length % 2) (0 : Byte)) ++ rest =
        c.body.take 4 ++ ((c.body.drop 4 ++ List.replicate (c.body.length % 2) 0) ++ rest) := by
      rw [← List.append_assoc, ← List.append_assoc, List.take_append_drop]
    rw [e3, readN_at (by rw [List.length_take]; omega)]
    simp only [Option.bind_eq_bind, Option.bind_some]
    have e4 : ((c.body.length : Int) - 4 + (c.body.length % 2 : ℕ)) = ((c.body.length - 4 + c.body.length % 2 : ℕ) : Int) := by omega
    have hl : (c.body.drop 4 ++ List.replicate (c.body.length % 2) (0 : Byte)).length = c.body.length - 4 + c.body.length % 2 := by simp
    rw [e4, u64_ofNat (by omega), ← hl, seekForward_ok _ _ (by rw [hl]; simp only [atPos, List.length_append, hid, le_length, List.length_take]; omega)]
    simp only
    rw [atPos_skip, hl, u64_ofNat (by omega)]
    have e5 : pre ++ c.id ++ le 4 c.body.length ++ c.body.take 4 ++ (c.body.drop 4 ++ List.replicate (c.body.length % 2) 0) = pre ++ c.encode := by
      rw [← e2]
      simp only [List.append_assoc]
      rw [← List.append_assoc (c.body.take 4), List.take_append_drop]
    rw [e5]
    congr 1
    omega
  · rw [if_neg hf]
    simp only [Option.bind_some]
    rw [← body_length, seekForward_ok _ _ (by rw [body_length]; simp only [atPos, List.length_append, hid, le_length]; omega)]
    simp only
    rw [atPos_skip, body_length, u64_ofNat (by omega), e2]
    congr 1
    omega

theorem findFmt_skips (cs : List RiffChunk) (hcs : ∀ c ∈ cs, c.id.length = 4 ∧ c.id ≠ fourcc "fmt " ∧ c.body.length < 2 ^ 32) (pre rest : List Byte) (r : Nat)
    (hp : pre.length + (cs.flatMap RiffChunk.encode).length < 2 ^ 63) :
    findFmt (atPos pre (cs.flatMap RiffChunk.encode ++ rest)) r =
      findFmt (atPos (pre ++ cs.flatMap RiffChunk.encode) rest) (r + (cs.flatMap RiffChunk.encode).length) := by
  induction cs generalizing pre r with
  | nil => simp
  | cons c cs ih =>
    obtain ⟨h1, h2, h3⟩ := hcs c (by simp)
    rw [List.flatMap_cons] at hp ⊢
    rw [List.length_append] at hp
    rw [List.append_assoc, findFmt_skip c h1 h2 h3 _ _ _ (by omega), ih (fun c hc => hcs c (by simp [hc])) _ _ (by rw [List.length_append]; omega)]
    rw [List.length_append, List.append_assoc, Nat.add_assoc]

theorem findData_skips (cs : List RiffChunk)
    (hcs : ∀ c ∈ cs, c.id.length = 4 ∧ c.id ≠ fourcc "data" ∧ (c.id = fourcc "fact" → 4 ≤ c.body.length) ∧ c.body.length < 2 ^ 32) (pre rest : List Byte) (r : Nat)
    (hp : pre.length + (cs.flatMap RiffChunk.encode).length < 2 ^ 63) (hr : r + (cs.flatMap RiffChunk.encode).length < 2 ^ 63) :
    findData (atPos pre (cs.flatMap RiffChunk.encode ++ rest)) r =
      findData (atPos (pre ++ cs.flatMap RiffChunk.encode) rest) (r + (cs.flatMap RiffChunk.encode).length) := by
  induction cs generalizing pre r with
  | nil => simp
  | cons c cs ih =>
    obtain ⟨h1, h2, h3, h4⟩ := hcs c (by simp)
    rw [List.flatMap_cons] at hp hr ⊢
    rw [List.length_append] at hp hr
    rw [List.append_assoc, findData_skip c h1 h2 h3 h4 _ _ _ (by omega) (by omega),
      ih (fun c hc => hcs c (by simp [hc])) _ _ (by rw [List.length_append]; omega) (by omega)]
    rw [List.length_append, List.append_assoc, Nat.add_assoc]

/-- Opening, up to the search for the data chunk. -/
theorem init_tail (before : List RiffChunk) (tag ch rate avg align bits r : Nat) (tail : List Byte)
    (hbefore : ∀ c ∈ before, c.id.length = 4 ∧ c.id ≠ fourcc "fmt " ∧ c.body.length < 2 ^ 32)
    (htag : tag < 65534) (hc : compressed tag = false) (hch : 0 < ch) (hch' : ch < 2 ^ 16) (hrate : 0 < rate) (hrate' : rate < 2 ^ 32) (hal : ch ≤ align) (hal' : align < 2 ^ 16)
    (hbits : 0 < bits) (hbits' : bits < 2 ^ 16) (hr : 36 ≤ r) (hr' : r < 2 ^ 32) (hlen : 12 + (before.flatMap RiffChunk.encode).length < 2 ^ 63) :
    init (fourcc "RIFF" ++ (le 4 r ++ (fourcc "WAVE" ++ (before.flatMap RiffChunk.encode ++ (fmtChunk tag ch rate avg align bits ++ tail))))) =
      (findData (atPos (fourcc "RIFF" ++ (le 4 r ++ (fourcc "WAVE" ++ (before.flatMap RiffChunk.encode ++ fmtChunk tag ch rate avg align bits)))) tail)
        (12 + (before.flatMap RiffChunk.encode).length + 24)).bind fun q =>
          some ⟨q.2.1, tag, rate, ch, bits, align / ch, q.1 / (align / ch), q.1, q.2.2, q.1, align⟩ := by
  have k16 : (2 : ℕ) ^ 16 = 65536 := by norm_num
  have k32 : (2 : ℕ) ^ 32 = 4294967296 := by norm_num
  have hbps : 0 < align / ch := Nat.div_pos hal hch
  have e0 : ∀ b : List Byte, (⟨b, 0⟩ : File) = atPos [] b := fun _ => rfl
  unfold init
  simp only [e0]
  rw [readN_at len_RIFF]
  simp only [Option.bind_eq_bind, Option.bind_some, ne_eq, not_true_eq_false, if_false, pure]
  rw [readN_at (le_length _ _)]
  simp only [Option.bind_some, leNat_le]
  rw [Nat.mod_eq_of_lt (by norm_num; exact hr'), if_neg (by omega), readN_at len_WAVE]
  simp only [Option.bind_some, not_true_eq_false, if_false]
  have hfmt : readFmt (atPos (([] ++ fourcc "RIFF") ++ le 4 r ++ fourcc "WAVE") (before.flatMap RiffChunk.encode ++ (fmtChunk tag ch rate avg align bits ++ tail))) 12 =
      readFmt (atPos (([] ++ fourcc "RIFF") ++ le 4 r ++ fourcc "WAVE" ++ before.flatMap RiffChunk.encode) (fmtChunk tag ch rate avg align bits ++ tail))
        (12 + (before.flatMap RiffChunk.encode).length) := by
    unfold readFmt
    rw [findFmt_skips before hbefore _ _ _ (by simp only [List.length_append, len_RIFF, len_WAVE, le_length, List.length_nil]; omega)]
  rw [hfmt]
  have efmt : fmtChunk tag ch rate avg align bits ++ tail =
      fourcc "fmt " ++ (le 4 16 ++ (le 2 tag ++ (le 2 ch ++ (le 4 rate ++ (le 4 avg ++ (le 2 align ++ (le 2 bits ++ tail))))))) := by
    simp only [fmtChunk, List.append_assoc]
  rw [efmt, readFmt_at]
  simp only [Option.bind_some]
  have htag' : tag < 65536 := by omega
  rw [Nat.mod_eq_of_lt htag', Nat.mod_eq_of_lt (by omega : ch < 65536), Nat.mod_eq_of_lt (by omega : rate < 4294967296),
    Nat.mod_eq_of_lt (by omega : align < 65536), Nat.mod_eq_of_lt (by omega : bits < 65536), if_neg (by omega)]
  have ep : [] ++ fourcc "RIFF" ++ le 4 r ++ fourcc "WAVE" ++ before.flatMap RiffChunk.encode ++
      (fourcc "fmt " ++ (le 4 16 ++ (le 2 tag ++ (le 2 ch ++ (le 4 rate ++ (le 4 avg ++ (le 2 align ++ le 2 bits))))))) =
      fourcc "RIFF" ++ (le 4 r ++ (fourcc "WAVE" ++ (before.flatMap RiffChunk.encode ++ fmtChunk tag ch rate avg align bits))) := by
    simp only [fmtChunk, List.append_assoc, List.nil_append]
  rw [ep]
  congr 1
  funext q
  rw [if_neg (by omega), if_neg (by omega : ¬ tag = 65534), hc]
  simp only [Bool.false_eq_true, false_and, if_false]
  have ht : totalCount tag q.1 align (align / ch) ch = q.1 / (align / ch) := by
    unfold totalCount; rw [if_neg (fun h => by rw [h] at hc; exact absurd hc (by decide)), if_neg (fun h => by rw [h] at hc; exact absurd hc (by decide))]
  rw [ht]

theorem findData_far {f : File} {r : Nat} (h : f.bytes.length ≤ f.pos) : findData f r = none := by
  rw [findData_eq]
  unfold readChunkHeader
  rw [readN_none_of_far (by omega) h]
  rfl

end DrWav

/-- **C92.** Unknown chunks are skipped: a WAV file may contain any chunks before and after the format chunk (other than `fmt ` before it, and `data` or a `fact` of less than four bytes
after it) and anything after the data; the reader is opened on exactly the contents of the data chunk. -/
theorem C92_chunks (before after : List RiffChunk) (tag ch rate avg align bits r : Nat) (data rest : List Byte)
    (hbefore : ∀ c ∈ before, c.id.length = 4 ∧ c.id ≠ fourcc "fmt " ∧ c.body.length < 2 ^ 32)
    (hafter : ∀ c ∈ after, c.id.length = 4 ∧ c.id ≠ fourcc "data" ∧ (c.id = fourcc "fact" → 4 ≤ c.body.length) ∧ c.body.length < 2 ^ 32)
    (htag : tag < 65534) (hc : compressed tag = false) (hch : 0 < ch) (hch' : ch < 2 ^ 16) (hrate : 0 < rate) (hrate' : rate < 2 ^ 32) (hal : ch ≤ align) (hal' : align < 2 ^ 16)
    (hbits : 0 < bits) (hbits' : bits < 2 ^ 16) (hr : 36 ≤ r) (hr' : r < 2 ^ 32) (hd : data.length < 2 ^ 32)
    (hlen : (wavWith before after tag ch rate avg align bits r data rest).length < 2 ^ 63) :
    ∃ w, init (wavWith before after tag ch rate avg align bits r data rest) = some w ∧ w.tag = tag ∧ w.channels = ch ∧ w.rate = rate ∧ w.bps = align / ch ∧
      w.dataSize = data.length ∧ DataChunk (wavWith before after tag ch rate avg align bits r data rest) w data := by
  have k16 : (2 : ℕ) ^ 16 = 65536 := by norm_num
  have k32 : (2 : ℕ) ^ 32 = 4294967296 := by norm_num
  have hfmtl : (fmtChunk tag ch rate avg align bits).length = 24 := by simp [fmtChunk]
  have htl : (wavWith before after tag ch rate avg align bits r data rest).length =
      12 + (before.flatMap RiffChunk.encode).length + 24 + (after.flatMap RiffChunk.encode).length + 8 + data.length + rest.length := by
    unfold wavWith
    simp only [List.length_append, len_RIFF, len_WAVE, len_data, le_length, hfmtl]
    omega
  rw [htl] at hlen
  have hbps : 0 < align / ch := Nat.div_pos hal hch
  have hinit : init (wavWith before after tag ch rate avg align bits r data rest) =
      some ⟨⟨wavWith before after tag ch rate avg align bits r data rest,
          12 + (before.flatMap RiffChunk.encode).length + 24 + (after.flatMap RiffChunk.encode).length + 8⟩, tag, rate, ch, bits, align / ch,
        data.length / (align / ch), data.length,
        12 + (before.flatMap RiffChunk.encode).length + 24 + (after.flatMap RiffChunk.encode).length + 8, data.length, align⟩ := by
    unfold wavWith
    rw [init_tail before tag ch rate avg align bits r _ hbefore htag hc hch hch' hrate hrate' hal hal' hbits hbits' hr hr' (by omega)]
    have hpl : (fourcc "RIFF" ++ (le 4 r ++ (fourcc "WAVE" ++ (before.flatMap RiffChunk.encode ++ fmtChunk tag ch rate avg align bits)))).length =
        12 + (before.flatMap RiffChunk.encode).length + 24 := by
      simp only [List.length_append, len_RIFF, len_WAVE, le_length, hfmtl]; omega
    rw [findData_skips after hafter _ _ _ (by rw [hpl]; omega) (by omega), findData_at _ _ _ _ (by omega)]
    simp only [Option.bind_some, Option.some.injEq, Wav.mk.injEq, atPos, File.mk.injEq, and_true]
    refine ⟨?_, ?_⟩
    · simp only [List.append_assoc]
    · simp only [List.length_append, len_RIFF, len_WAVE, len_data, le_length, hfmtl]; omega
  refine ⟨_, hinit, rfl, rfl, rfl, rfl, rfl, ?_⟩
  refine ⟨fourcc "RIFF" ++ (le 4 r ++ (fourcc "WAVE" ++ (before.flatMap RiffChunk.encode ++ (fmtChunk tag ch rate avg align bits ++ after.flatMap RiffChunk.encode)))),
    data ++ rest, ?_, ?_, hd, ?_, rfl⟩
  · simp only [wavWith, List.append_assoc]
  · rw [List.take_left]
  · simp only [File.mk.injEq, true_and, List.length_append, len_RIFF, len_WAVE, le_length, hfmtl]
    omega

/-- **C92.** A `fact` chunk of up to two bytes makes a file unreadable: the size minus four is computed in unsigned arithmetic, and the reader seeks 2^64 - 4 (or 2^64 - 2) bytes forward. -/
theorem C92_fact_violation (before after : List RiffChunk) (fact : RiffChunk) (tag ch rate avg align bits r : Nat) (data rest : List Byte)
    (hbefore : ∀ c ∈ before, c.id.length = 4 ∧ c.id ≠ fourcc "fmt " ∧ c.body.length < 2 ^ 32) (hid : fact.id = fourcc "fact") (hfact : fact.body.length ≤ 2)
    (htag : tag < 65534) (hc : compressed tag = false) (hch : 0 < ch) (hch' : ch < 2 ^ 16) (hrate : 0 < rate) (hrate' : rate < 2 ^ 32) (hal : ch ≤ align) (hal' : align < 2 ^ 16)
    (hbits : 0 < bits) (hbits' : bits < 2 ^ 16) (hr : 36 ≤ r) (hr' : r < 2 ^ 32)
    (hlen : (wavWith before (fact :: after) tag ch rate avg align bits r data rest).length < 2 ^ 62) :
    init (wavWith before (fact :: after) tag ch rate avg align bits r data rest) = none := by
  have k62 : (2 : ℕ) ^ 62 + 4294967296 < 2 ^ 63 := by norm_num
  have k64 : (2 : ℕ) ^ 63 + 2 ^ 63 = 2 ^ 64 := by norm_num
  have hfl : (fourcc "fact").length = 4 := by decide
  unfold wavWith at hlen ⊢
  rw [init_tail before tag ch rate avg align bits r _ hbefore htag hc hch hch' hrate hrate' hal hal' hbits hbits' hr hr' (by
    simp only [List.length_append, len_RIFF, len_WAVE, le_length] at hlen; omega)]
  have e1 : (fact :: after).flatMap RiffChunk.encode ++ (fourcc "data" ++ (le 4 data.length ++ (data ++ rest))) =
      fact.id ++ (le 4 fact.body.length ++ ((fact.body ++ List.replicate (fact.body.length % 2) 0) ++
        (after.flatMap RiffChunk.encode ++ (fourcc "data" ++ (le 4 data.length ++ (data ++ rest)))))) := by
    simp [RiffChunk.encode, List.append_assoc]
  rw [e1] at hlen ⊢
  rw [findData_eq, readChunkHeader_at (by rw [hid]; exact hfl) (le_length _ _)]
  simp only [Option.bind_some, leNat_le]
  rw [Nat.mod_eq_of_lt (by norm_num; omega), if_neg (by rw [hid]; decide)]
  unfold skipFact
  simp only
  rw [if_pos hid]
  generalize hf : atPos _ _ = f
  have hfb : f.bytes.length < 2 ^ 62 := by
    rw [← hf]
    unfold atPos
    simp only [List.length_append, len_RIFF, len_WAVE, len_data, le_length] at hlen ⊢
    omega
  cases e2 : readN f 4 with
  | none => rfl
  | some q =>
    obtain ⟨b, f1⟩ := q
    obtain ⟨s1, -⟩ := readN_spec e2
    simp only [Option.bind_eq_bind, Option.bind_some]
    have hu : 2 ^ 64 - 4 ≤ u64 ((fact.body.length : Int) - 4 + (fact.body.length % 2 : ℕ)) := by
      obtain h | h | h : fact.body.length = 0 ∨ fact.body.length = 1 ∨ fact.body.length = 2 := by omega
      all_goals rw [h]; unfold u64; norm_num
    generalize u64 ((fact.body.length : Int) - 4 + (fact.body.length % 2 : ℕ)) = o at hu
    rw [findData_far]
    · rfl
    · rw [(seekForward_mono f1 o).1, s1]
      rcases seekForward_cases f1 o with ⟨-, h⟩ | ⟨-, h⟩
      · rw [h]; simp only; omega
      · rw [intMax_eq] at h; omega

/-- A 24-bit stereo file with two unknown chunks and a `fact` chunk: three samples, read in two steps. -/
example : ∃ w, init (wavWith [⟨fourcc "JUNK", [1]⟩] [⟨fourcc "fact", [0, 0, 0, 0]⟩, ⟨fourcc "LIST", [5, 6, 7]⟩] 1 2 48000 0 6 24 100
      [1, 2, 3, 4, 5, 6, 7, 8, 9, 10] [99]) = some w ∧ readMany w [2, 2, 2] = some [[[1, 2, 3], [4, 5, 6]], [[7, 8, 9]], []] := by
  obtain ⟨w, e, h1, h2, h3, h4, h5, h6⟩ := C92_chunks [⟨fourcc "JUNK", [1]⟩] [⟨fourcc "fact", [0, 0, 0, 0]⟩, ⟨fourcc "LIST", [5, 6, 7]⟩] 1 2 48000 0 6 24 100
      [1, 2, 3, 4, 5, 6, 7, 8, 9, 10] [99] (by decide) (by decide) (by decide) (by decide) (by decide) (by decide) (by decide) (by decide) (by decide) (by decide) (by decide)
      (by decide) (by decide) (by decide) (by decide) (by decide)
  refine ⟨w, e, ?_⟩
  rw [C92_reads _ w e (Or.inl h1) (by rw [h4]; decide) _ h6, h4]
  rw [← groups_eq_samplesOf _ (by decide)]
  decide

/-- Its data chunk is not a whole number of samples: `seek` fails. -/
example : ∃ w, init (wavWith [] [] 1 2 48000 0 6 24 100 [1, 2, 3, 4, 5, 6, 7, 8, 9, 10] []) = some w ∧
    readerStep w (.seek 0) = .error .assertFail := by
  obtain ⟨w, e, h1, h2, h3, h4, h5, h6⟩ := C92_chunks [] [] 1 2 48000 0 6 24 100
      [1, 2, 3, 4, 5, 6, 7, 8, 9, 10] [] (by decide) (by decide) (by decide) (by decide) (by decide) (by decide) (by decide) (by decide) (by decide) (by decide) (by decide)
      (by decide) (by decide) (by decide) (by decide) (by decide)
  exact ⟨w, e, C92_seek_violation _ w e (by rw [h1]; decide) (by rw [h4, h5]; decide) (by rw [h4, h5]; decide) 0⟩

/-- An ADPCM file that can be opened. -/
example : ∃ w, init (header 2 1 48000 0 256 4 100 0) = some w ∧ readerStep w .position = .error .divByZero := by
  have e := init_header_gen 2 1 48000 0 256 4 100 0 [] (by decide) (by decide) (by decide) (by decide) (by decide) (by decide) (by decide) (by decide)
  rw [List.append_nil, if_neg (by decide), if_neg (by decide), if_neg (by decide), if_neg (by decide)] at e
  exact ⟨_, e, C92_position_violation _ _ e (by decide)⟩

end Verif
