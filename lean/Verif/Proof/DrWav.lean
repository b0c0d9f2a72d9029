import Verif.Model.DrWav
import Mathlib.Tactic.Linarith
import Mathlib.Tactic.Ring
import Mathlib.Tactic.NormNum
import Mathlib.Data.List.Basic
/-!
# Lemmas on WAV files
-/
namespace Verif
namespace DrWav

/-! ## Little-endian numbers -/

@[simp] theorem le_length (n v : Nat) : (le n v).length = n := by
  induction n generalizing v with
  | zero => rfl
  | succ n ih => simp [le, ih]

theorem leNat_le (n v : Nat) : leNat (le n v) = v % 256 ^ n := by
  induction n generalizing v with
  | zero => simp [le, leNat, Nat.mod_one]
  | succ n ih =>
    simp only [le, leNat, ih, BitVec.toNat_ofNat]
    rw [show (2:ℕ) ^ 8 = 256 by norm_num, pow_succ', Nat.mod_mul]

theorem leNat_lt (b : List Byte) : leNat b < 256 ^ b.length := by
  induction b with
  | nil => simp [leNat]
  | cons x b ih =>
    simp only [leNat, List.length_cons, pow_succ']
    have := x.isLt
    omega

theorem le_leNat (b : List Byte) : le b.length (leNat b) = b := by
  induction b with
  | nil => rfl
  | cons x b ih =>
    simp only [List.length_cons, leNat, le]
    have hx := x.isLt
    have h1 : (x.toNat + 256 * leNat b) / 256 = leNat b := by omega
    rw [h1, ih]
    congr 1
    apply BitVec.eq_of_toNat_eq
    rw [BitVec.toNat_ofNat]
    omega

theorem leNat_append (a b : List Byte) : leNat (a ++ b) = leNat a + 256 ^ a.length * leNat b := by
  induction a with
  | nil => simp [leNat]
  | cons x a ih => simp only [List.cons_append, leNat, ih, List.length_cons, pow_succ']; ring

/-! ## Reading the header -/

/-- The file positioned after `pre`. -/
def atPos (pre rest : List Byte) : File := ⟨pre ++ rest, pre.length⟩

theorem readN_at {pre b rest : List Byte} {n : Nat} (h : b.length = n) :
    readN (atPos pre (b ++ rest)) n = some (b, atPos (pre ++ b) rest) := by
  subst h
  unfold readN fread atPos
  simp [List.append_assoc]

theorem readN_short {pre rest : List Byte} {n : Nat} (h : rest.length < n) : readN (atPos pre rest) n = none := by
  unfold readN fread atPos
  simp only [List.drop_left, List.length_take]
  rw [if_neg]
  omega

theorem readChunkHeader_at {pre id sz rest : List Byte} (h1 : id.length = 4) (h2 : sz.length = 4) :
    readChunkHeader (atPos pre (id ++ (sz ++ rest))) = some (⟨id, leNat sz, leNat sz % 2⟩, atPos (pre ++ id ++ sz) rest) := by
  unfold readChunkHeader
  rw [readN_at h1]
  simp only [Option.bind_eq_bind, Option.bind_some]
  rw [readN_at h2]
  rfl

theorem readChunkHeader_short {pre rest : List Byte} (h : rest.length < 8) : readChunkHeader (atPos pre rest) = none := by
  unfold readChunkHeader
  by_cases h4 : rest.length < 4
  · rw [readN_short h4]; rfl
  · have e : rest = rest.take 4 ++ rest.drop 4 := (List.take_append_drop 4 rest).symm
    rw [e, readN_at (by simp; omega)]
    simp only [Option.bind_eq_bind, Option.bind_some]
    rw [readN_short (by simp; omega)]
    rfl

theorem findFmt_eq (f : File) (running : Nat) : findFmt f running =
    (readChunkHeader f).bind fun p =>
      if p.1.id = fourcc "fmt " then some (p.1, p.2, running + 8)
      else if (seekForward p.2 (p.1.size + p.1.padding)).1 then
        findFmt (seekForward p.2 (p.1.size + p.1.padding)).2 (running + 8 + (p.1.size + p.1.padding))
      else none := by
  rw [findFmt]
  split
  · rename_i e; rw [e]; rfl
  · rename_i h f1 e
    rw [e]
    simp only [Option.bind_some]
    split
    · rfl
    · split
      · rename_i e2; rw [e2]; rfl
      · rename_i e2; rw [e2]; rfl

theorem findData_eq (f : File) (running : Nat) : findData f running =
    (readChunkHeader f).bind fun p =>
      if p.1.id = fourcc "data" then some (p.1.size, p.2, running + 8)
      else (skipFact p.1 p.2 (running + 8)).bind fun q =>
        findData (seekForward q.2.1 q.1).2 (u64 ((q.2.2 + q.1 : Nat) : Int)) := by
  rw [findData]
  split
  · rename_i e; rw [e]; rfl
  · rename_i h f1 e
    rw [e]
    simp only [Option.bind_some]
    split
    · rfl
    · split
      · rename_i e2; rw [e2]; rfl
      · rename_i e2; rw [e2]; rfl

/-- The header of a file with a 16-byte `fmt ` chunk followed by the `data` chunk. -/
def header (tag ch rate avg align bits r d : Nat) : List Byte :=
  fourcc "RIFF" ++ (le 4 r ++ (fourcc "WAVE" ++ (fourcc "fmt " ++ (le 4 16 ++ (le 2 tag ++ (le 2 ch ++ (le 4 rate ++ (le 4 avg ++ (le 2 align ++
    (le 2 bits ++ (fourcc "data" ++ le 4 d)))))))))))

theorem fourcc_RIFF : fourcc "RIFF" = [0x52#8, 0x49#8, 0x46#8, 0x46#8] := by decide
theorem fourcc_WAVE : fourcc "WAVE" = [0x57#8, 0x41#8, 0x56#8, 0x45#8] := by decide
theorem fourcc_fmt : fourcc "fmt " = [0x66#8, 0x6d#8, 0x74#8, 0x20#8] := by decide
theorem fourcc_data : fourcc "data" = [0x64#8, 0x61#8, 0x74#8, 0x61#8] := by decide
theorem fourcc_fact : fourcc "fact" = [0x66#8, 0x61#8, 0x63#8, 0x74#8] := by decide

@[simp] theorem len_RIFF : (fourcc "RIFF").length = 4 := by decide
@[simp] theorem len_WAVE : (fourcc "WAVE").length = 4 := by decide
@[simp] theorem len_fmt : (fourcc "fmt ").length = 4 := by decide
@[simp] theorem len_data : (fourcc "data").length = 4 := by decide

theorem header_length (tag ch rate avg align bits r d : Nat) : (header tag ch rate avg align bits r d).length = 44 := by
  simp [header]

theorem readFmt_at (pre rest : List Byte) (tag ch rate avg align bits running : Nat) :
    readFmt (atPos pre (fourcc "fmt " ++ (le 4 16 ++ (le 2 tag ++ (le 2 ch ++ (le 4 rate ++ (le 4 avg ++ (le 2 align ++ (le 2 bits ++ rest))))))))) running =
    some (⟨tag % 65536, ch % 65536, rate % 4294967296, align % 65536, bits % 65536, 0⟩,
      atPos (pre ++ (fourcc "fmt " ++ (le 4 16 ++ (le 2 tag ++ (le 2 ch ++ (le 4 rate ++ (le 4 avg ++ (le 2 align ++ le 2 bits)))))))) rest, running + 24) := by
  unfold readFmt
  rw [findFmt_eq, readChunkHeader_at len_fmt (le_length _ _)]
  simp only [Option.bind_eq_bind, Option.bind_some, if_true]
  have e : le 2 tag ++ (le 2 ch ++ (le 4 rate ++ (le 4 avg ++ (le 2 align ++ (le 2 bits ++ rest))))) =
      (le 2 tag ++ (le 2 ch ++ (le 4 rate ++ (le 4 avg ++ (le 2 align ++ le 2 bits))))) ++ rest := by simp [List.append_assoc]
  rw [e, readN_at (by simp)]
  simp only [Option.bind_some, leNat_le]
  unfold readFmtExt
  rw [if_pos (by norm_num)]
  simp only [Option.bind_some, pure, Nat.reduceMod, Nat.reducePow, lt_irrefl, if_false]
  simp only [Option.some.injEq, Prod.mk.injEq, Fmt.mk.injEq]
  refine ⟨⟨?_, ?_, ?_, ?_, ?_, trivial⟩, ?_, ?_⟩
  · rw [List.take_left' (le_length _ _), leNat_le]; norm_num
  · rw [List.drop_left' (le_length _ _), List.take_left' (le_length _ _), leNat_le]; norm_num
  · have : le 2 tag ++ (le 2 ch ++ (le 4 rate ++ (le 4 avg ++ (le 2 align ++ le 2 bits)))) =
        (le 2 tag ++ le 2 ch) ++ (le 4 rate ++ (le 4 avg ++ (le 2 align ++ le 2 bits))) := by simp
    rw [this, List.drop_left' (by simp), List.take_left' (le_length _ _), leNat_le]; norm_num
  · have : le 2 tag ++ (le 2 ch ++ (le 4 rate ++ (le 4 avg ++ (le 2 align ++ le 2 bits)))) =
        (le 2 tag ++ (le 2 ch ++ (le 4 rate ++ le 4 avg))) ++ (le 2 align ++ le 2 bits) := by simp
    rw [this, List.drop_left' (by simp), List.take_left' (le_length _ _), leNat_le]; norm_num
  · have : le 2 tag ++ (le 2 ch ++ (le 4 rate ++ (le 4 avg ++ (le 2 align ++ le 2 bits)))) =
        (le 2 tag ++ (le 2 ch ++ (le 4 rate ++ (le 4 avg ++ le 2 align)))) ++ le 2 bits := by simp
    rw [this, List.drop_left' (by simp), List.take_of_length_le (by simp), leNat_le]; norm_num
  · simp [List.append_assoc]
  · trivial

theorem findData_at (pre rest : List Byte) (d running : Nat) (hd : d < 4294967296) :
    findData (atPos pre (fourcc "data" ++ (le 4 d ++ rest))) running = some (d, atPos (pre ++ fourcc "data" ++ le 4 d) rest, running + 8) := by
  rw [findData_eq, readChunkHeader_at len_data (le_length _ _)]
  simp only [Option.bind_some, if_true, leNat_le]
  rw [Nat.mod_eq_of_lt (by norm_num; exact hd)]

/-- Opening a file with this header. -/
theorem init_header_gen (tag ch rate avg align bits r d : Nat) (data : List Byte) (htag : tag < 65536) (hf : tag ≠ 0xFFFE)
    (hch : ch < 65536) (hrate : rate < 4294967296)
    (hal : align < 65536) (hbits : bits < 65536) (hr : r < 4294967296) (hd : d < 4294967296) :
    init (header tag ch rate avg align bits r d ++ data) =
      if r < 36 then none
      else if rate = 0 ∨ ch = 0 ∨ bits = 0 ∨ align = 0 then none
      else if align / ch = 0 then none
      else if compressed tag = true ∧ 2 < ch then none
      else some ⟨⟨header tag ch rate avg align bits r d ++ data, 44⟩, tag, rate, ch, bits, if compressed tag = true then 0 else align / ch, totalCount tag d align (align / ch) ch, d, 44, d, align⟩ := by
  unfold init
  have e0 : (⟨header tag ch rate avg align bits r d ++ data, 0⟩ : File) = atPos [] (header tag ch rate avg align bits r d ++ data) := rfl
  have e1 : header tag ch rate avg align bits r d ++ data =
      fourcc "RIFF" ++ (le 4 r ++ (fourcc "WAVE" ++ (fourcc "fmt " ++ (le 4 16 ++ (le 2 tag ++ (le 2 ch ++ (le 4 rate ++ (le 4 avg ++ (le 2 align ++
    (le 2 bits ++ (fourcc "data" ++ (le 4 d ++ data)))))))))))) := by simp [header, List.append_assoc]
  simp only
  rw [e0, e1, readN_at len_RIFF]
  simp only [Option.bind_eq_bind, Option.bind_some, ne_eq, not_true_eq_false, if_false, pure]
  rw [readN_at (le_length _ _)]
  simp only [Option.bind_some, leNat_le]
  rw [Nat.mod_eq_of_lt (by norm_num; exact hr)]
  by_cases h36 : r < 36
  · rw [if_pos h36, if_pos h36]; rfl
  rw [if_neg h36, if_neg h36]
  rw [readN_at len_WAVE]
  simp only [Option.bind_some, not_true_eq_false, if_false]
  rw [readFmt_at]
  simp only [Option.bind_some]
  rw [Nat.mod_eq_of_lt htag, Nat.mod_eq_of_lt hch, Nat.mod_eq_of_lt hrate, Nat.mod_eq_of_lt hal, Nat.mod_eq_of_lt hbits]
  by_cases hz : rate = 0 ∨ ch = 0 ∨ bits = 0 ∨ align = 0
  · rw [if_pos hz, if_pos hz]; rfl
  rw [if_neg hz, if_neg hz]
  rw [findData_at _ _ _ _ hd]
  simp only [Option.bind_some]
  by_cases hb : align / ch = 0
  · rw [if_pos hb, if_pos hb]; rfl
  rw [if_neg hb, if_neg hb, if_neg hf]
  by_cases hq : compressed tag = true ∧ 2 < ch
  · rw [if_pos hq, if_pos hq]; rfl
  rw [if_neg hq, if_neg hq]
  simp only [Option.some.injEq, Wav.mk.injEq, atPos, File.mk.injEq, and_true, true_and]
  simp [List.append_assoc]

theorem init_header (tag ch rate avg align bits r d : Nat) (data : List Byte) (htag : tag < 65536) (hf : tag ≠ 0xFFFE) (hn : compressed tag = false)
    (hch : ch < 65536) (hrate : rate < 4294967296)
    (hal : align < 65536) (hbits : bits < 65536) (hr : r < 4294967296) (hd : d < 4294967296) :
    init (header tag ch rate avg align bits r d ++ data) =
      if r < 36 then none
      else if rate = 0 ∨ ch = 0 ∨ bits = 0 ∨ align = 0 then none
      else if align / ch = 0 then none
      else some ⟨⟨header tag ch rate avg align bits r d ++ data, 44⟩, tag, rate, ch, bits, align / ch, totalCount tag d align (align / ch) ch, d, 44, d, align⟩ := by
  rw [init_header_gen tag ch rate avg align bits r d data htag hf hch hrate hal hbits hr hd, hn]
  simp only [Bool.false_eq_true, false_and, if_false]

end DrWav
end Verif
