import Verif.Proof.DrWavW64
import Verif.Props.WavOpen
/-!
# C102: Wave64 files
-/
namespace Verif
open DrWav WavSpec

namespace WavSpec

/-- The bytes of the data chunk of a Wave64 file that a reader was opened on: the reader is positioned after a header `data` whose size field, which includes the 24 bytes of the header, is `n`; the
chunk may be cut off by the end of the file. -/
def DataChunk64 (bytes : List Byte) (w : Wav) (data : List Byte) : Prop :=
  ∃ a b n, n < 2 ^ 64 ∧ bytes = a ++ (guidData ++ (le 8 n ++ b)) ∧ (w.dataSize : Int) = (n - 24) % 2 ^ 64 ∧ data = b.take w.dataSize ∧
    w.file = ⟨bytes, a.length + 24⟩ ∧ w.remaining = w.dataSize

/-- A chunk of a Wave64 file. -/
structure W64Chunk where
  id : List Byte
  body : List Byte

/-- Its encoding, as the format prescribes: identifier, size including these 24 bytes, contents, padding to a multiple of eight bytes. -/
def W64Chunk.encode (c : W64Chunk) : List Byte :=
  c.id ++ (le 8 (c.body.length + 24) ++ (c.body ++ List.replicate ((8 - c.body.length % 8) % 8) 0))

/-- The contents of the format chunk. -/
def fmtBody (tag ch rate avg align bits : Nat) : List Byte := le 2 tag ++ (le 2 ch ++ (le 4 rate ++ (le 4 avg ++ (le 2 align ++ le 2 bits))))

/-- A Wave64 file: the file header, chunks, the format chunk, more chunks, the data chunk, anything. -/
def w64With (before after : List W64Chunk) (fmt : List Byte) (r : Nat) (data rest : List Byte) : List Byte :=
  guidRiff ++ (le 8 r ++ (guidWave ++ (before.flatMap W64Chunk.encode ++ ((W64Chunk.mk guidFmt fmt).encode ++
    (after.flatMap W64Chunk.encode ++ (guidData ++ (le 8 (data.length + 24) ++ (data ++ rest))))))))

/-- The sample count in the last `fact` chunk (0 if there is none). -/
def factCount (cs : List W64Chunk) : Nat := cs.foldl (fun k c => if c.id = guidFact then leNat (c.body.take 8) else k) 0

end WavSpec

/-- **C102.** Opening any file whatsoever terminates and either fails, or gives a reader as `C92_open` says, or the file begins with the identifier of Wave64 and the reader is positioned at the
beginning of the contents of a chunk `data` of the file, with at least one channel, one sample per second and, unless the format is ADPCM, one byte per sample. -/
theorem C102_open (bytes : List Byte) : initAny bytes = none ∨ initAny bytes = init bytes ∨
    ∃ w data, initAny bytes = some w ∧ bytes.take 16 = guidRiff ∧ DataChunk64 bytes w data ∧
      1 ≤ w.channels ∧ w.channels < 2 ^ 16 ∧ 1 ≤ w.rate ∧ w.rate < 2 ^ 32 ∧ (compressed w.tag = false → 1 ≤ w.bps) := by
  unfold initAny
  split
  · cases e : initW64 bytes with
    | none => exact Or.inl rfl
    | some w =>
      right; right
      obtain ⟨h1, h2, h3, h4, h5, h6, h7, -, ⟨a, b, n, hn, h8, h9, h10⟩, -, h12⟩ := initW64_spec e
      refine ⟨w, b.take w.dataSize, rfl, h12, ⟨a, b, n, hn, h8, ?_, rfl, ?_, h6⟩, h2, h3, h4, h5, fun hc => (h7 hc).1⟩
      · rw [h9]; unfold u64
        rw [Int.toNat_of_nonneg (Int.emod_nonneg _ (by norm_num))]
      · rw [← h10, ← h1]
  · exact Or.inr (Or.inl rfl)

theorem chunk_of_dataChunk64 {bytes : List Byte} {w : Wav} {data : List Byte} (h : DataChunk64 bytes w data) : chunk w = data := by
  obtain ⟨a, b, n, -, e, -, rfl, hf, hr⟩ := h
  unfold chunk
  rw [hf, hr]
  simp only
  rw [e, ← List.append_assoc, ← List.append_assoc, List.drop_left' (by simp [len_guidData])]

/-- **C102.** Every sequence of reads from a PCM or float Wave64 file delivers the samples of the data chunk, in order, each once, and nothing else; when the file is cut off, the samples that are
completely there. -/
theorem C102_reads (bytes : List Byte) (w : Wav) (e : initW64 bytes = some w) (ht : Plain w) (hb : w.bps ≤ 4096)
    (data : List Byte) (hd : DataChunk64 bytes w data) (ns : List (BitVec 32)) :
    readMany w ns = some (slices (samplesOf w.bps data) ns) := by
  obtain ⟨-, -, -, -, -, -, h7, -⟩ := initW64_spec e
  obtain ⟨i1, -⟩ := h7 ht.compressed
  rw [readMany_eq w ns ht i1 hb, avail, groups_eq_samplesOf _ i1, chunk_of_dataChunk64 hd]

/-- **C102.** In a PCM or float Wave64 file of less than 2 GiB whose data chunk is complete and contains a whole number of samples, the one the file announces, every sequence of calls behaves
like a tape. -/
theorem C102_tape (bytes : List Byte) (w : Wav) (e : initW64 bytes = some w) (ht : Plain w) (hb : w.bps ≤ 4096)
    (hl : bytes.length < 2 ^ 31) (data : List Byte) (hd : DataChunk64 bytes w data) (hdl : data.length = w.dataSize) (hm : w.dataSize = w.total * w.bps)
    (ops : List ROp) : readerRun w ops = .ok (some (tapeRun (samplesOf w.bps data) 0 ops)) := by
  obtain ⟨h1, -, -, -, -, h6, h7, -, -, h11, -⟩ := initW64_spec e
  obtain ⟨i1, -⟩ := h7 ht.compressed
  have hch := chunk_of_dataChunk64 hd
  obtain ⟨a, b, n, -, e2, -, rfl, hf, hr⟩ := hd
  have hbl : w.dataSize ≤ b.length := by rw [List.length_take] at hdl; omega
  have hlen : bytes.length = a.length + 24 + b.length := by rw [e2]; simp [len_guidData]; omega
  have hl' : bytes.length < 2147483648 := hl
  have hpos : w.file.pos = a.length + 24 := by rw [hf]
  have g : Good w := ⟨ht, i1, hb, hm, by omega, h6, h11 hl, by omega, by rw [h1]; omega⟩
  have := g.run (Nat.zero_le _) ops
  have e0 : stateAt w 0 = w := by simp [stateAt, advance_zero]
  rw [e0, avail, groups_eq_samplesOf _ i1, hch] at this
  exact this

namespace DrWav

theorem encode64_length (c : W64Chunk) (h : c.id.length = 16) : c.encode.length = 24 + (c.body.length + (8 - c.body.length % 8) % 8) := by
  simp [W64Chunk.encode, h]; omega

theorem u64_size {n : Nat} (h : n + 24 < 2 ^ 64) : u64 (((n + 24 : Nat) : Int) - 24) = n := by
  have : (((n + 24 : Nat) : Int) - 24) = (n : Int) := by push_cast; ring
  rw [this, u64_ofNat (by omega)]

/-- The chunk sizes for which the padding is computed correctly. -/
theorem pad_ok {n : Nat} (h : n % 4 = 0) : (8 - n % 8) % 8 = n % 8 := by omega

theorem header64_at (c : W64Chunk) (hid : c.id.length = 16) (hb : c.body.length < 2 ^ 62) (hp : c.body.length % 4 = 0) (pre rest : List Byte) :
    readChunkHeader64 (atPos pre (c.encode ++ rest)) =
      some (⟨c.id, c.body.length, c.body.length % 8⟩, atPos (pre ++ c.id ++ le 8 (c.body.length + 24)) ((c.body ++ List.replicate (c.body.length % 8) 0) ++ rest)) := by
  have k64 : (2 : ℕ) ^ 62 + 2 ^ 62 < 2 ^ 64 := by norm_num
  have k24 : (24 : ℕ) < 2 ^ 62 := by norm_num
  have e : c.encode ++ rest = c.id ++ (le 8 (c.body.length + 24) ++ ((c.body ++ List.replicate (c.body.length % 8) 0) ++ rest)) := by
    simp [W64Chunk.encode, List.append_assoc, pad_ok hp]
  have hlt : c.body.length + 24 < 256 ^ 8 := by
    have : (256 : ℕ) ^ 8 = 2 ^ 64 := by norm_num
    omega
  rw [e, readChunkHeader64_at hid (le_length _ _), leNat_le, Nat.mod_eq_of_lt hlt, u64_size (by omega)]

theorem body64_length (c : W64Chunk) : (c.body ++ List.replicate (c.body.length % 8) (0 : Byte)).length = c.body.length + c.body.length % 8 := by simp

theorem findFmt64_skip (c : W64Chunk) (hid : c.id.length = 16) (hne : c.id ≠ guidFmt) (hb : c.body.length < 2 ^ 62) (hpad : c.body.length % 4 = 0)
    (pre rest : List Byte) (r : Nat) (hp : pre.length + c.encode.length < 2 ^ 63) :
    findFmt64 (atPos pre (c.encode ++ rest)) r = findFmt64 (atPos (pre ++ c.encode) rest) (r + c.encode.length) := by
  have k64 : (2 : ℕ) ^ 62 + 2 ^ 62 < 2 ^ 64 := by norm_num
  have k24 : (24 : ℕ) < 2 ^ 62 := by norm_num
  have hel := encode64_length c hid
  rw [pad_ok hpad] at hel
  conv_lhs => rw [findFmt64_eq]
  rw [header64_at c hid hb hpad]
  simp only [Option.bind_some]
  rw [if_neg hne, u64_ofNat (by omega), ← body64_length, seekForward_ok _ _ (by rw [body64_length]; simp only [atPos, List.length_append, hid, le_length]; omega)]
  simp only [if_true]
  rw [atPos_skip, body64_length, hel]
  have e2 : pre ++ c.id ++ le 8 (c.body.length + 24) ++ (c.body ++ List.replicate (c.body.length % 8) 0) = pre ++ c.encode := by
    simp [W64Chunk.encode, List.append_assoc, pad_ok hpad]
  rw [e2, Nat.add_assoc]

theorem findFmt64_skips (cs : List W64Chunk) (hcs : ∀ c ∈ cs, c.id.length = 16 ∧ c.id ≠ guidFmt ∧ c.body.length % 4 = 0 ∧ c.body.length < 2 ^ 62)
    (pre rest : List Byte) (r : Nat) (hp : pre.length + (cs.flatMap W64Chunk.encode).length < 2 ^ 63) :
    findFmt64 (atPos pre (cs.flatMap W64Chunk.encode ++ rest)) r =
      findFmt64 (atPos (pre ++ cs.flatMap W64Chunk.encode) rest) (r + (cs.flatMap W64Chunk.encode).length) := by
  induction cs generalizing pre r with
  | nil => simp
  | cons c cs ih =>
    obtain ⟨h1, h2, h3, h4⟩ := hcs c (by simp)
    rw [List.flatMap_cons] at hp ⊢
    rw [List.length_append] at hp
    rw [List.append_assoc, findFmt64_skip c h1 h2 h4 h3 _ _ _ (by omega), ih (fun c hc => hcs c (by simp [hc])) _ _ (by rw [List.length_append]; omega)]
    rw [List.length_append, List.append_assoc, Nat.add_assoc]

theorem findData64_skip (c : W64Chunk) (hid : c.id.length = 16) (hne : c.id ≠ guidData) (hfact : c.id = guidFact → 8 ≤ c.body.length)
    (hb : c.body.length < 2 ^ 62) (hpad : c.body.length % 4 = 0) (pre rest : List Byte) (r k : Nat) (hp : pre.length + c.encode.length < 2 ^ 63)
    (hr : r + c.encode.length < 2 ^ 63) :
    findData64 (atPos pre (c.encode ++ rest)) r k =
      findData64 (atPos (pre ++ c.encode) rest) (r + c.encode.length) (if c.id = guidFact then leNat (c.body.take 8) else k) := by
  have k64 : (2 : ℕ) ^ 62 + 2 ^ 62 < 2 ^ 64 := by norm_num
  have k63 : (2 : ℕ) ^ 63 < 2 ^ 64 := by norm_num
  have k24 : (24 : ℕ) < 2 ^ 62 := by norm_num
  have hel := encode64_length c hid
  rw [pad_ok hpad] at hel
  conv_lhs => rw [findData64_eq]
  rw [header64_at c hid hb hpad]
  simp only [Option.bind_some]
  rw [if_neg hne]
  have e2 : pre ++ c.id ++ le 8 (c.body.length + 24) ++ (c.body ++ List.replicate (c.body.length % 8) 0) = pre ++ c.encode := by
    simp [W64Chunk.encode, List.append_assoc, pad_ok hpad]
  unfold skipFact64
  simp only
  by_cases hf : c.id = guidFact
  · rw [if_pos hf, if_pos hf]
    have h8 := hfact hf
    have e3 : (c.body ++ List.replicate (c.body.length % 8) (0 : Byte)) ++ rest =
        c.body.take 8 ++ ((c.body.drop 8 ++ List.replicate (c.body.length % 8) 0) ++ rest) := by
      rw [← List.append_assoc, ← List.append_assoc, List.take_append_drop]
    rw [e3, readN_at (by rw [List.length_take]; omega)]
    simp only [Option.bind_eq_bind, Option.bind_some]
    have e4 : ((c.body.length : Int) - 8 + (c.body.length % 8 : ℕ)) = ((c.body.length - 8 + c.body.length % 8 : ℕ) : Int) := by omega
    have hl : (c.body.drop 8 ++ List.replicate (c.body.length % 8) (0 : Byte)).length = c.body.length - 8 + c.body.length % 8 := by simp
    rw [e4, u64_ofNat (by omega), ← hl, seekForward_ok _ _ (by rw [hl]; simp only [atPos, List.length_append, hid, le_length, List.length_take]; omega)]
    simp only
    rw [atPos_skip, hl, u64_ofNat (by omega)]
    have e5 : pre ++ c.id ++ le 8 (c.body.length + 24) ++ c.body.take 8 ++ (c.body.drop 8 ++ List.replicate (c.body.length % 8) 0) = pre ++ c.encode := by
      rw [← e2]
      simp only [List.append_assoc]
      rw [← List.append_assoc (c.body.take 8), List.take_append_drop]
    rw [e5]
    congr 1
    omega
  · rw [if_neg hf, if_neg hf]
    simp only [Option.bind_some]
    rw [u64_ofNat (by omega), ← body64_length, seekForward_ok _ _ (by rw [body64_length]; simp only [atPos, List.length_append, hid, le_length]; omega)]
    simp only
    rw [atPos_skip, body64_length, u64_ofNat (by omega), e2]
    congr 1
    omega

theorem findData64_skips (cs : List W64Chunk)
    (hcs : ∀ c ∈ cs, c.id.length = 16 ∧ c.id ≠ guidData ∧ (c.id = guidFact → 8 ≤ c.body.length) ∧ c.body.length % 4 = 0 ∧ c.body.length < 2 ^ 62)
    (pre rest : List Byte) (r k : Nat) (hp : pre.length + (cs.flatMap W64Chunk.encode).length < 2 ^ 63) (hr : r + (cs.flatMap W64Chunk.encode).length < 2 ^ 63) :
    findData64 (atPos pre (cs.flatMap W64Chunk.encode ++ rest)) r k =
      findData64 (atPos (pre ++ cs.flatMap W64Chunk.encode) rest) (r + (cs.flatMap W64Chunk.encode).length)
        (cs.foldl (fun k c => if c.id = guidFact then leNat (c.body.take 8) else k) k) := by
  induction cs generalizing pre r k with
  | nil => simp
  | cons c cs ih =>
    obtain ⟨h1, h2, h3, h4, h5⟩ := hcs c (by simp)
    rw [List.flatMap_cons] at hp hr ⊢
    rw [List.length_append] at hp hr
    rw [List.append_assoc, findData64_skip c h1 h2 h3 h5 h4 _ _ _ _ (by omega) (by omega),
      ih (fun c hc => hcs c (by simp [hc])) _ _ _ (by rw [List.length_append]; omega) (by omega)]
    rw [List.length_append, List.append_assoc, Nat.add_assoc, List.foldl_cons]

/-- What opening does after the file header. -/
def tail64 (f : File) : Option Wav :=
  (readFmt64 f 40).bind fun p =>
    if p.1.rate = 0 ∨ p.1.channels = 0 ∨ p.1.bits = 0 ∨ p.1.align = 0 then none
    else (findData64 p.2.1 p.2.2 0).bind fun q =>
      if p.1.align / p.1.channels = 0 then none
      else if compressed (if p.1.tag = 0xFFFE then p.1.sub else p.1.tag) ∧ 2 < p.1.channels then none
      else some ⟨q.2.1, if p.1.tag = 0xFFFE then p.1.sub else p.1.tag, p.1.rate, p.1.channels, p.1.bits,
        if compressed (if p.1.tag = 0xFFFE then p.1.sub else p.1.tag) then 0 else p.1.align / p.1.channels,
        if q.2.2.2 ≠ 0 then u64 ((q.2.2.2 * p.1.channels : Nat) : Int)
          else totalCount (if p.1.tag = 0xFFFE then p.1.sub else p.1.tag) q.1 p.1.align (p.1.align / p.1.channels) p.1.channels,
        q.1, q.2.2.1, q.1, p.1.align⟩

theorem initW64_head (r : Nat) (hr : 80 ≤ r) (hr' : r < 2 ^ 64) (t : List Byte) :
    initW64 (guidRiff ++ (le 8 r ++ (guidWave ++ t))) = tail64 (atPos (guidRiff ++ le 8 r ++ guidWave) t) := by
  have e0 : ∀ b : List Byte, (⟨b, 0⟩ : File) = atPos [] b := fun _ => rfl
  have eg : guidRiff ++ (le 8 r ++ (guidWave ++ t)) = fourcc "riff" ++ (guidRiff.drop 4 ++ (le 8 r ++ (guidWave ++ t))) := by
    rw [← List.append_assoc (fourcc "riff")]; congr 1
  have hr8 : r < 256 ^ 8 := by
    have : (256 : ℕ) ^ 8 = 2 ^ 64 := by norm_num
    omega
  rw [eg]
  unfold initW64
  simp only [e0]
  rw [readN_at (by decide : (fourcc "riff").length = 4)]
  simp only [Option.bind_eq_bind, Option.bind_some, ne_eq, not_true_eq_false, if_false, pure]
  rw [readN_at (by decide : (guidRiff.drop 4).length = 12)]
  simp only [Option.bind_some, not_true_eq_false, if_false]
  rw [readN_at (le_length _ _)]
  simp only [Option.bind_some, leNat_le]
  rw [Nat.mod_eq_of_lt hr8, if_neg (by omega), readN_at len_guidWave]
  simp only [Option.bind_some, not_true_eq_false, if_false]
  have ep : [] ++ fourcc "riff" ++ List.drop 4 guidRiff ++ le 8 r ++ guidWave = guidRiff ++ le 8 r ++ guidWave := by
    congr 1
  rw [ep]
  unfold tail64
  rfl

theorem readFmt64_skips (before : List W64Chunk) (hcs : ∀ c ∈ before, c.id.length = 16 ∧ c.id ≠ guidFmt ∧ c.body.length % 4 = 0 ∧ c.body.length < 2 ^ 62)
    (pre rest : List Byte) (r : Nat) (hp : pre.length + (before.flatMap W64Chunk.encode).length < 2 ^ 63) :
    readFmt64 (atPos pre (before.flatMap W64Chunk.encode ++ rest)) r =
      readFmt64 (atPos (pre ++ before.flatMap W64Chunk.encode) rest) (r + (before.flatMap W64Chunk.encode).length) := by
  unfold readFmt64
  rw [findFmt64_skips before hcs _ _ _ hp]

theorem fmtBody_length (tag ch rate avg align bits : Nat) : (fmtBody tag ch rate avg align bits).length = 16 := by simp [fmtBody]

theorem fmtBody_fields (tag ch rate avg align bits : Nat) :
    leNat ((fmtBody tag ch rate avg align bits).take 2) = tag % 65536 ∧ leNat (((fmtBody tag ch rate avg align bits).drop 2).take 2) = ch % 65536 ∧
    leNat (((fmtBody tag ch rate avg align bits).drop 4).take 4) = rate % 4294967296 ∧ leNat (((fmtBody tag ch rate avg align bits).drop 12).take 2) = align % 65536 ∧
    leNat (((fmtBody tag ch rate avg align bits).drop 14).take 2) = bits % 65536 := by
  unfold fmtBody
  refine ⟨?_, ?_, ?_, ?_, ?_⟩
  · rw [List.take_left' (le_length _ _), leNat_le]; norm_num
  · rw [List.drop_left' (le_length _ _), List.take_left' (le_length _ _), leNat_le]; norm_num
  · have : le 2 tag ++ (le 2 ch ++ (le 4 rate ++ (le 4 avg ++ (le 2 align ++ le 2 bits)))) =
        (le 2 tag ++ le 2 ch) ++ (le 4 rate ++ (le 4 avg ++ (le 2 align ++ le 2 bits))) := by simp
    rw [this, List.drop_left' (by simp), List.take_left' (le_length _ _), leNat_le]; norm_num
  · have : le 2 tag ++ (le 2 ch ++ (le 4 rate ++ (le 4 avg ++ (le 2 align ++ le 2 bits)))) =
        (le 2 tag ++ (le 2 ch ++ (le 4 rate ++ le 4 avg))) ++ (le 2 align ++ le 2 bits) := by simp
    rw [this, List.drop_left' (by simp), List.take_left' (le_length _ _), leNat_le]; norm_num
  · have : le 2 tag ++ (le 2 ch ++ (le 4 rate ++ (le 4 avg ++ (le 2 align ++ le 2 bits)))) =
        (le 2 tag ++ (le 2 ch ++ (le 4 rate ++ (le 4 avg ++ le 2 align)))) ++ le 2 bits := by simp
    rw [this, List.drop_left' (by simp), List.take_of_length_le (by simp), leNat_le]; norm_num

theorem readFmt64_at (pre rest : List Byte) (tag ch rate avg align bits running : Nat) :
    readFmt64 (atPos pre ((W64Chunk.mk guidFmt (fmtBody tag ch rate avg align bits)).encode ++ rest)) running =
    some (⟨tag % 65536, ch % 65536, rate % 4294967296, align % 65536, bits % 65536, 0⟩,
      atPos (pre ++ (W64Chunk.mk guidFmt (fmtBody tag ch rate avg align bits)).encode) rest, running + 40) := by
  obtain ⟨h1, h2, h3, h4, h5⟩ := fmtBody_fields tag ch rate avg align bits
  have hl := fmtBody_length tag ch rate avg align bits
  unfold readFmt64
  rw [findFmt64_eq, header64_at _ len_guidFmt (by simp only; rw [hl]; norm_num) (by simp only; rw [hl])]
  simp only [Option.bind_eq_bind, Option.bind_some, if_true, hl]
  have e : (fmtBody tag ch rate avg align bits ++ List.replicate (16 % 8) (0 : Byte)) ++ rest = fmtBody tag ch rate avg align bits ++ rest := by simp
  rw [e, readN_at hl]
  simp only [Option.bind_some]
  unfold readFmtExt
  rw [if_pos (by norm_num)]
  simp only [Option.bind_some, pure, Nat.reduceMod, lt_irrefl, if_false, h1, h2, h3, h4, h5]
  have e2 : pre ++ guidFmt ++ le 8 (16 + 24) ++ fmtBody tag ch rate avg align bits = pre ++ (W64Chunk.mk guidFmt (fmtBody tag ch rate avg align bits)).encode := by
    simp [W64Chunk.encode, hl, List.append_assoc]
  rw [e2]

theorem findData64_at (pre rest : List Byte) (n running k : Nat) (hn : n + 24 < 2 ^ 64) :
    findData64 (atPos pre (guidData ++ (le 8 (n + 24) ++ rest))) running k = some (n, atPos (pre ++ guidData ++ le 8 (n + 24)) rest, running + 24, k) := by
  have hlt : n + 24 < 256 ^ 8 := by
    have : (256 : ℕ) ^ 8 = 2 ^ 64 := by norm_num
    omega
  rw [findData64_eq, readChunkHeader64_at len_guidData (le_length _ _)]
  simp only [Option.bind_some, if_true, leNat_le]
  rw [Nat.mod_eq_of_lt hlt, u64_size hn]

theorem take4_w64 (t : List Byte) : (guidRiff ++ t).take 4 = fourcc "riff" := by
  rw [List.take_append_of_le_length (by decide)]; decide

end DrWav

/-- **C102.** A Wave64 file may contain any chunks before and after the format chunk whose sizes are multiples of four (other than a second `fmt ` before, and `data` or a `fact` of less
than eight bytes after it) and anything after the data; the reader is opened on exactly the contents of the data chunk, and the number of samples is the one in the `fact` chunk, if there is one,
times the number of channels, otherwise the number of samples that fit in the chunk. -/
theorem C102_chunks (before after : List W64Chunk) (tag ch rate avg align bits r : Nat) (data rest : List Byte)
    (hbefore : ∀ c ∈ before, c.id.length = 16 ∧ c.id ≠ guidFmt ∧ c.body.length % 4 = 0 ∧ c.body.length < 2 ^ 62)
    (hafter : ∀ c ∈ after, c.id.length = 16 ∧ c.id ≠ guidData ∧ (c.id = guidFact → 8 ≤ c.body.length) ∧ c.body.length % 4 = 0 ∧ c.body.length < 2 ^ 62)
    (htag : tag < 65534) (hc : compressed tag = false) (hch : 0 < ch) (hch' : ch < 2 ^ 16) (hrate : 0 < rate) (hrate' : rate < 2 ^ 32) (hal : ch ≤ align) (hal' : align < 2 ^ 16)
    (hbits : 0 < bits) (hbits' : bits < 2 ^ 16) (hr : 80 ≤ r) (hr' : r < 2 ^ 64)
    (hlen : (w64With before after (fmtBody tag ch rate avg align bits) r data rest).length < 2 ^ 62) :
    ∃ w, initAny (w64With before after (fmtBody tag ch rate avg align bits) r data rest) = some w ∧ w.tag = tag ∧ w.channels = ch ∧ w.rate = rate ∧ w.bps = align / ch ∧
      w.dataSize = data.length ∧ w.total = (if factCount after = 0 then data.length / (align / ch) else factCount after * ch % 2 ^ 64) ∧
      DataChunk64 (w64With before after (fmtBody tag ch rate avg align bits) r data rest) w data := by
  have k16 : (2 : ℕ) ^ 16 = 65536 := by norm_num
  have k32 : (2 : ℕ) ^ 32 = 4294967296 := by norm_num
  have k62 : (2 : ℕ) ^ 62 + 2 ^ 62 = 2 ^ 63 := by norm_num
  have k63 : (2 : ℕ) ^ 63 + 2 ^ 63 = 2 ^ 64 := by norm_num
  have k24 : (100 : ℕ) < 2 ^ 62 := by norm_num
  have hfl : (W64Chunk.mk guidFmt (fmtBody tag ch rate avg align bits)).encode.length = 40 := by
    rw [encode64_length _ len_guidFmt]; simp only [fmtBody_length]
  have htl : (w64With before after (fmtBody tag ch rate avg align bits) r data rest).length =
      40 + (before.flatMap W64Chunk.encode).length + 40 + (after.flatMap W64Chunk.encode).length + 24 + data.length + rest.length := by
    unfold w64With
    simp only [List.length_append, len_guidRiff, len_guidWave, len_guidData, le_length, hfl]
    omega
  rw [htl] at hlen
  have hbps : 0 < align / ch := Nat.div_pos hal hch
  have hinit : initAny (w64With before after (fmtBody tag ch rate avg align bits) r data rest) =
      some ⟨⟨w64With before after (fmtBody tag ch rate avg align bits) r data rest,
          40 + (before.flatMap W64Chunk.encode).length + 40 + (after.flatMap W64Chunk.encode).length + 24⟩, tag, rate, ch, bits, align / ch,
        (if factCount after = 0 then data.length / (align / ch) else factCount after * ch % 2 ^ 64), data.length,
        40 + (before.flatMap W64Chunk.encode).length + 40 + (after.flatMap W64Chunk.encode).length + 24, data.length, align⟩ := by
    unfold initAny
    rw [if_pos (show List.take 4 (w64With before after (fmtBody tag ch rate avg align bits) r data rest) = _ from take4_w64 _)]
    unfold w64With
    rw [initW64_head r hr hr']
    unfold tail64
    have hp0 : (guidRiff ++ le 8 r ++ guidWave).length = 40 := by simp only [List.length_append, len_guidRiff, len_guidWave, le_length]
    rw [readFmt64_skips before hbefore _ _ _ (by rw [hp0]; omega), readFmt64_at]
    simp only [Option.bind_some]
    have htag' : tag < 65536 := by omega
    rw [Nat.mod_eq_of_lt htag', Nat.mod_eq_of_lt (by omega : ch < 65536), Nat.mod_eq_of_lt (by omega : rate < 4294967296),
      Nat.mod_eq_of_lt (by omega : align < 65536), Nat.mod_eq_of_lt (by omega : bits < 65536), if_neg (by omega)]
    have hp1 : (guidRiff ++ le 8 r ++ guidWave ++ before.flatMap W64Chunk.encode ++ (W64Chunk.mk guidFmt (fmtBody tag ch rate avg align bits)).encode).length =
        40 + (before.flatMap W64Chunk.encode).length + 40 := by
      rw [List.length_append, List.length_append, hp0, hfl]
    rw [findData64_skips after hafter _ _ _ _ (by rw [hp1]; omega) (by omega), findData64_at _ _ _ _ _ (by omega)]
    simp only [Option.bind_some]
    rw [if_neg (by omega), if_neg (by omega : ¬ tag = 65534), hc]
    simp only [Bool.false_eq_true, false_and, if_false]
    have ht : totalCount tag data.length align (align / ch) ch = data.length / (align / ch) := by
      unfold totalCount; rw [if_neg (fun h => by rw [h] at hc; exact absurd hc (by decide)), if_neg (fun h => by rw [h] at hc; exact absurd hc (by decide))]
    rw [ht]
    have hu : ∀ n : ℕ, u64 (n : Int) = n % 2 ^ 64 := by
      intro n; unfold u64
      have : ((n : Int) % 2 ^ 64) = ((n % 2 ^ 64 : ℕ) : Int) := by push_cast; rfl
      rw [this, Int.toNat_natCast]
    rw [hu]
    have hfc : List.foldl (fun k c => if c.id = guidFact then leNat (c.body.take 8) else k) 0 after = factCount after := rfl
    rw [hfc]
    simp only [Option.some.injEq, Wav.mk.injEq, atPos, File.mk.injEq, and_true, true_and]
    refine ⟨⟨?_, ?_⟩, ?_⟩
    · simp only [List.append_assoc]
    · simp only [List.length_append, len_guidRiff, len_guidWave, len_guidData, le_length, hfl]
    · by_cases h : factCount after = 0 <;> simp [h]
  refine ⟨_, hinit, rfl, rfl, rfl, rfl, rfl, rfl, ?_⟩
  refine ⟨guidRiff ++ (le 8 r ++ (guidWave ++ (before.flatMap W64Chunk.encode ++ ((W64Chunk.mk guidFmt (fmtBody tag ch rate avg align bits)).encode ++
      after.flatMap W64Chunk.encode)))), data ++ rest, data.length + 24, by omega, ?_, ?_, ?_, ?_, rfl⟩
  · simp only [w64With, List.append_assoc]
  · simp only
    have : (((data.length + 24 : ℕ) : Int) - 24) = (data.length : Int) := by push_cast; ring
    rw [this, Int.emod_eq_of_lt (by omega) (by exact_mod_cast (by omega : data.length < 2 ^ 64))]
  · rw [List.take_left]
  · simp only [File.mk.injEq, true_and, List.length_append, len_guidRiff, len_guidWave, le_length, hfl]
    omega

/-- **C102.** The count in the `fact` chunk is believed: if it does not match the data, `position()` is not 0 directly after opening, and if it is too small, every `seek` fails an assertion. -/
theorem C102_fact_violation (k : Nat) (tag ch rate avg align bits r : Nat) (data rest : List Byte) (hk : 0 < k) (hk' : k * ch < 2 ^ 64)
    (htag : tag < 65534) (hc : compressed tag = false) (hch : 0 < ch) (hch' : ch < 2 ^ 16) (hrate : 0 < rate) (hrate' : rate < 2 ^ 32) (hal : ch ≤ align) (hal' : align < 2 ^ 16)
    (hbits : 0 < bits) (hbits' : bits < 2 ^ 16) (hr : 80 ≤ r) (hr' : r < 2 ^ 64)
    (hlen : (w64With [] [⟨guidFact, le 8 k⟩] (fmtBody tag ch rate avg align bits) r data rest).length < 2 ^ 62) :
    ∃ w, initAny (w64With [] [⟨guidFact, le 8 k⟩] (fmtBody tag ch rate avg align bits) r data rest) = some w ∧ w.total = k * ch ∧
      (∃ p, readerStep w .position = .ok (some (.num p, w)) ∧ (p = 0 ↔ k * ch = data.length / (align / ch))) ∧
      (k * ch * (align / ch) < data.length → ∀ t, readerStep w (.seek t) = .error .assertFail) := by
  have k62 : (2 : ℕ) ^ 62 + 2 ^ 62 < 2 ^ 64 := by norm_num
  have hbps : 0 < align / ch := Nat.div_pos hal hch
  have hkk : k < 256 ^ 8 := by
    have e : (256 : ℕ) ^ 8 = 2 ^ 64 := by norm_num
    rw [e]; exact lt_of_le_of_lt (Nat.le_mul_of_pos_right k hch) hk'
  have hfc : factCount [⟨guidFact, le 8 k⟩] = k := by
    unfold factCount
    rw [List.foldl_cons, List.foldl_nil, if_pos rfl, List.take_of_length_le (by rw [le_length]), leNat_le, Nat.mod_eq_of_lt hkk]
  obtain ⟨w, h1, h2, h3, h4, h5, h6, h7, h8⟩ := C102_chunks [] [⟨guidFact, le 8 k⟩] tag ch rate avg align bits r data rest (by simp)
    (by intro c hc; rw [List.mem_singleton.1 hc]; simp only [le_length]; exact ⟨len_guidFact, by decide, fun _ => by omega, by norm_num, by norm_num⟩)
    htag hc hch hch' hrate hrate' hal hal' hbits hbits' hr hr' hlen
  rw [hfc, if_neg (by omega), Nat.mod_eq_of_lt hk'] at h7
  have hdl : data.length < 2 ^ 62 := by
    refine lt_of_le_of_lt ?_ hlen
    unfold w64With
    simp only [List.length_append]
    omega
  have hrem : w.remaining = data.length := by obtain ⟨a, b, n, -, -, -, -, -, h⟩ := h8; rw [h, h6]
  have hq : data.length / (align / ch) < 2 ^ 62 := lt_of_le_of_lt (Nat.div_le_self _ _) hdl
  refine ⟨w, h1, h7, ⟨u64 (((k * ch : ℕ) : Int) - (data.length / (align / ch) : ℕ)), ?_, ?_⟩, ?_⟩
  · simp only [readerStep, position]
    rw [if_neg (by omega), h7, hrem, h5]
    rfl
  · generalize data.length / (align / ch) = q at *
    generalize k * ch = m at *
    unfold u64
    have k64 : (2 : ℤ) ^ 64 = 18446744073709551616 := by norm_num
    have k64' : (2 : ℕ) ^ 64 = 18446744073709551616 := by norm_num
    rw [k64]
    omega
  · intro hlt t
    simp only [readerStep, seek]
    have hpos : 0 < k * ch := Nat.mul_pos hk hch
    rw [h7, h2, hc, h5, hrem, if_neg (by omega), if_neg (by simp), if_pos hlt]
    rfl

namespace DrWav

theorem findData64_far {f : File} {r k : Nat} (h : f.bytes.length ≤ f.pos) : findData64 f r k = none := by
  rw [findData64_eq]
  unfold readChunkHeader64
  rw [readN_none_of_far (by omega) h]
  rfl

theorem readFmt64_18 (pre rest : List Byte) (tag ch rate avg align bits running : Nat) (hp : pre.length + 44 < 2 ^ 62) :
    ∃ r', readFmt64 (atPos pre ((W64Chunk.mk guidFmt (fmtBody tag ch rate avg align bits ++ le 2 0)).encode ++ rest)) running =
    some (⟨tag % 65536, ch % 65536, rate % 4294967296, align % 65536, bits % 65536, 0⟩,
      atPos (pre ++ (guidFmt ++ (le 8 42 ++ (fmtBody tag ch rate avg align bits ++ (le 2 0 ++ [0, 0]))))) ([0, 0, 0, 0] ++ rest), r') := by
  obtain ⟨h1, h2, h3, h4, h5⟩ := fmtBody_fields tag ch rate avg align bits
  have hl := fmtBody_length tag ch rate avg align bits
  have k63 : (2 : ℕ) ^ 62 + 2 ^ 62 = 2 ^ 63 := by norm_num
  have k100 : (100 : ℕ) < 2 ^ 62 := by norm_num
  have e : (W64Chunk.mk guidFmt (fmtBody tag ch rate avg align bits ++ le 2 0)).encode ++ rest =
      guidFmt ++ (le 8 42 ++ (fmtBody tag ch rate avg align bits ++ (le 2 0 ++ ([0, 0] ++ ([0, 0, 0, 0] ++ rest))))) := by
    simp only [W64Chunk.encode, List.length_append, hl, le_length, List.append_assoc]
    rfl
  rw [e]
  refine ⟨u64 ((running + 24 + 16 + 2 + 0 + 0 : ℕ) : Int) + 18 % 8, ?_⟩
  unfold readFmt64
  have hs : u64 ((leNat (le 8 42) : Int) - 24) = 18 := by decide
  rw [findFmt64_eq, readChunkHeader64_at len_guidFmt (le_length _ _), hs]
  simp only [Option.bind_eq_bind, Option.bind_some, if_true]
  rw [readN_at hl]
  simp only [Option.bind_some]
  unfold readFmtExt
  rw [if_neg (by norm_num)]
  simp only [Option.bind_eq_bind]
  rw [readN_at (le_length _ _)]
  simp only [Option.bind_some]
  have h0 : leNat (le 2 0) = 0 := by decide
  rw [h0]
  simp only [if_true, Option.bind_some, pure]
  have hz : toI32 (u64 (((18 : ℕ) : Int) - ((18 + 0 : ℕ) : Int))) = ((0 : ℕ) : Int) := by decide
  have hz2 : u64 (((18 : ℕ) : Int) - ((18 + 0 : ℕ) : Int)) = 0 := by decide
  rw [hz, hz2, fseekCur_ok _ 0 (by simp only [atPos, List.length_append, len_guidFmt, le_length, hl]; omega)]
  simp only [Option.bind_some]
  rw [if_pos (by norm_num), show ((18 % 8 : ℕ) : Int) = ((2 : ℕ) : Int) from rfl,
    fseekCur_ok _ 2 (by simp only [atPos, List.length_append, len_guidFmt, le_length, hl]; omega)]
  simp only [Option.bind_some, Option.some.injEq, Prod.mk.injEq, h1, h2, h3, h4, h5, true_and, and_true]
  simp [atPos, List.append_assoc]
  omega

/-- A 32-bit number above another one is below `2^64`. -/
theorem shift32_lt {c m : ℕ} (hm : m < 4294967296) (hc : c < 4294967296) : c + 4294967296 * m < 2 ^ 64 := by
  have : (2 : ℕ) ^ 64 = 4294967296 * 4294967296 := by norm_num
  rw [this]; nlinarith

/-- The offset the search skips, for the number it reads as the size of a chunk. -/
theorem shift32_ge (m q : ℕ) (hq : q < 8) (hm : 24 ≤ m) (hm' : m < 4294967296) : 68719476736 ≤ u64 ((2329644599 + 4294967296 * m + q : ℕ) : Int) := by
  have e : 2329644599 + 4294967296 * m + q = (2329644599 + q) + 4294967296 * m := by ring
  have hc : 2329644599 + q < 4294967296 := by omega
  rw [e, u64_ofNat (shift32_lt hm' hc)]
  nlinarith

end DrWav

/-- **C102.** A well-formed Wave64 file whose format chunk has the common length of 18 bytes (a format with an empty extension) cannot be opened: the padding of a chunk is taken to be its size
modulo 8, two bytes here, where six are needed to reach the next multiple of eight; the search for the data chunk goes on four bytes too early and ends at the end of the file. -/
theorem C102_padding_violation (before : List W64Chunk) (tag ch rate avg align bits r : Nat) (data rest : List Byte)
    (hbefore : ∀ c ∈ before, c.id.length = 16 ∧ c.id ≠ guidFmt ∧ c.body.length % 4 = 0 ∧ c.body.length < 2 ^ 62) (hr : 80 ≤ r) (hr' : r < 2 ^ 64)
    (hd : data.length + 24 < 2 ^ 32) (hlen : (w64With before [] (fmtBody tag ch rate avg align bits ++ le 2 0) r data rest).length < 2 ^ 36) :
    initAny (w64With before [] (fmtBody tag ch rate avg align bits ++ le 2 0) r data rest) = none := by
  have k62 : (2 : ℕ) ^ 36 + 2 ^ 36 < 2 ^ 62 := by norm_num
  have k63 : (2 : ℕ) ^ 62 + 2 ^ 62 = 2 ^ 63 := by norm_num
  have hp0 : (guidRiff ++ le 8 r ++ guidWave).length = 40 := by simp only [List.length_append, len_guidRiff, len_guidWave, le_length]
  have htl : 40 + (before.flatMap W64Chunk.encode).length + 48 + 24 + data.length + rest.length =
      (w64With before [] (fmtBody tag ch rate avg align bits ++ le 2 0) r data rest).length := by
    unfold w64With
    simp only [List.length_append, len_guidRiff, len_guidWave, len_guidData, le_length, List.flatMap_nil, List.length_nil]
    rw [encode64_length _ len_guidFmt]
    simp only [List.length_append, fmtBody_length, le_length]
    omega
  rw [← htl] at hlen
  unfold initAny
  rw [if_pos (show List.take 4 (w64With before [] (fmtBody tag ch rate avg align bits ++ le 2 0) r data rest) = _ from take4_w64 _)]
  unfold w64With
  rw [initW64_head r hr hr']
  unfold tail64
  rw [readFmt64_skips before hbefore _ _ _ (by rw [hp0]; omega)]
  obtain ⟨r', e⟩ := readFmt64_18 (guidRiff ++ le 8 r ++ guidWave ++ before.flatMap W64Chunk.encode)
    (([] : List W64Chunk).flatMap W64Chunk.encode ++ (guidData ++ (le 8 (data.length + 24) ++ (data ++ rest)))) tag ch rate avg align bits
    (40 + (before.flatMap W64Chunk.encode).length) (by rw [List.length_append, hp0]; omega)
  rw [e]
  simp only [Option.bind_some]
  split
  · rfl
  · have key : ∀ k, findData64 (atPos (guidRiff ++ le 8 r ++ guidWave ++ before.flatMap W64Chunk.encode ++
        (guidFmt ++ (le 8 42 ++ (fmtBody tag ch rate avg align bits ++ (le 2 0 ++ [0, 0])))))
        ([0, 0, 0, 0] ++ (([] : List W64Chunk).flatMap W64Chunk.encode ++ (guidData ++ (le 8 (data.length + 24) ++ (data ++ rest)))))) r' k = none := by
      intro k
      have hle : le 8 (data.length + 24) = le 4 (data.length + 24) ++ le 4 ((data.length + 24) / 4294967296) := by
        have : (data.length + 24) / 4294967296 = (data.length + 24) / 256 / 256 / 256 / 256 := by omega
        rw [this]; rfl
      have e2 : [0, 0, 0, 0] ++ (([] : List W64Chunk).flatMap W64Chunk.encode ++ (guidData ++ (le 8 (data.length + 24) ++ (data ++ rest)))) =
          ([0, 0, 0, 0] ++ guidData.take 12) ++ ((guidData.drop 12 ++ le 4 (data.length + 24)) ++ (le 4 ((data.length + 24) / 4294967296) ++ (data ++ rest))) := by
        rw [hle]
        simp only [List.flatMap_nil, List.nil_append, List.append_assoc]
        conv_lhs => rw [← List.take_append_drop 12 guidData]
        simp only [List.append_assoc]
      rw [e2, findData64_eq, readChunkHeader64_at (by decide) (by rw [List.length_append, le_length]; rfl)]
      simp only [Option.bind_some]
      rw [if_neg (by decide)]
      unfold skipFact64
      simp only
      rw [if_neg (by decide)]
      simp only [Option.bind_some]
      have hsz : leNat (guidData.drop 12 ++ le 4 (data.length + 24)) = 2329644623 + 4294967296 * (data.length + 24) := by
        rw [leNat_append, leNat_le, Nat.mod_eq_of_lt (by norm_num; omega)]
        have h1 : leNat (guidData.drop 12) = 2329644623 := by decide
        have h2 : 256 ^ (guidData.drop 12).length = 4294967296 := by decide
        rw [h1, h2]
      rw [hsz]
      have k32 : (2 : ℕ) ^ 32 = 4294967296 := by norm_num
      have k36 : (2 : ℕ) ^ 36 = 68719476736 := by norm_num
      have k64 : (2 : ℕ) ^ 64 = 18446744073709551616 := by norm_num
      have hm : data.length + 24 < 4294967296 := by rw [← k32]; exact hd
      have hu : u64 (((2329644623 + 4294967296 * (data.length + 24) : ℕ) : Int) - 24) = 2329644599 + 4294967296 * (data.length + 24) := by
        have : (((2329644623 + 4294967296 * (data.length + 24) : ℕ) : Int) - 24) = ((2329644599 + 4294967296 * (data.length + 24) : ℕ) : Int) := by push_cast; ring
        rw [this, u64_ofNat (shift32_lt hm (by norm_num))]
      rw [hu]
      have ho : ∀ o : ℕ, 68719476736 ≤ o → (findData64 (seekForward (atPos (guidRiff ++ le 8 r ++ guidWave ++ before.flatMap W64Chunk.encode ++
          (guidFmt ++ (le 8 42 ++ (fmtBody tag ch rate avg align bits ++ (le 2 0 ++ [0, 0])))) ++ ([0, 0, 0, 0] ++ guidData.take 12) ++
          (guidData.drop 12 ++ le 4 (data.length + 24))) (le 4 ((data.length + 24) / 4294967296) ++ (data ++ rest))) o).2 (u64 ((r' + 24 + o : ℕ) : Int)) k) = none := by
        intro o ho
        apply findData64_far
        rw [(seekForward_mono _ _).1]
        have hfl : ∀ p t : List Byte, (atPos p t).bytes.length = p.length + t.length := by intro p t; simp [atPos]
        rw [hfl]
        simp only [List.length_append, le_length, len_guidRiff, len_guidWave, len_guidFmt, fmtBody_length, List.length_cons, List.length_nil, List.length_take,
          List.length_drop, len_guidData]
        generalize atPos _ _ = f
        rcases seekForward_cases f o with ⟨-, h⟩ | ⟨-, h⟩
        · rw [h]; simp only; omega
        · rw [intMax_eq] at h
          have k63' : (2 : ℕ) ^ 63 = 9223372036854775808 := by norm_num
          omega
      apply ho
      exact shift32_ge _ _ (Nat.mod_lt _ (by norm_num)) (Nat.le_add_left _ _) hm
    rw [key]; rfl

/-- A stereo 16-bit Wave64 file with a junk chunk of 4 bytes, and no `fact`: three samples, read in two steps. -/
example : ∃ w, initAny (w64With [⟨fourcc "junk" ++ guidTail, [1, 2, 3, 4]⟩] [] (fmtBody 1 2 48000 0 4 16) 100 [1, 2, 3, 4, 5, 6] [99]) = some w ∧
    readMany w [2, 2] = some [[[1, 2], [3, 4]], [[5, 6]]] := by
  obtain ⟨w, e, h1, h2, h3, h4, h5, h6, h7⟩ := C102_chunks [⟨fourcc "junk" ++ guidTail, [1, 2, 3, 4]⟩] [] 1 2 48000 0 4 16 100 [1, 2, 3, 4, 5, 6] [99]
    (by intro c hc; rw [List.mem_singleton] at hc; subst hc; refine ⟨by decide, by decide, by decide, ?_⟩; norm_num) (by simp) (by norm_num) (by decide) (by norm_num) (by norm_num) (by norm_num)
    (by norm_num) (by norm_num) (by norm_num) (by norm_num) (by norm_num) (by norm_num) (by norm_num)
    (lt_trans (b := 200) (by decide +kernel) (by norm_num))
  refine ⟨w, e, ?_⟩
  have e' : initW64 (w64With [⟨fourcc "junk" ++ guidTail, [1, 2, 3, 4]⟩] [] (fmtBody 1 2 48000 0 4 16) 100 [1, 2, 3, 4, 5, 6] [99]) = some w := by
    unfold initAny at e
    rw [if_pos (by decide)] at e
    exact e
  rw [C102_reads _ w e' (Or.inl h1) (by rw [h4]; decide) _ h7, h4]
  rw [← groups_eq_samplesOf _ (by decide)]
  decide

/-- The hypotheses of `C102_padding_violation` are met by a mono float file. -/
example : initAny (w64With [] [] (fmtBody 3 1 48000 192000 4 32 ++ le 2 0) 130 [0, 0, 128, 63] []) = none :=
  C102_padding_violation [] 3 1 48000 192000 4 32 130 _ _ (by simp) (by norm_num) (by norm_num) (lt_trans (b := 200) (by decide) (by norm_num)) (lt_trans (b := 200) (by decide) (by norm_num))

end Verif
