import Verif.Proof.DrWavRead
/-!
# Lemmas on writing WAV files
-/
namespace Verif
namespace DrWav

/-- A byte-by-byte version of an operation. -/
def FileOp.bytewise : FileOp → List FileOp
  | .write b => b.map fun x => .write [x]
  | .seek p => [.seek p]

/-! ## The effect of operations -/

theorem apply_append (b c : List Byte) : FileOp.apply ⟨b, b.length⟩ (.write c) = ⟨b ++ c, (b ++ c).length⟩ := by
  simp [FileOp.apply]

theorem foldl_writes (b : List Byte) (cs : List (List Byte)) :
    (cs.map FileOp.write).foldl FileOp.apply ⟨b, b.length⟩ = ⟨b ++ cs.flatten, (b ++ cs.flatten).length⟩ := by
  induction cs generalizing b with
  | nil => simp
  | cons c cs ih => rw [List.map_cons, List.foldl_cons, apply_append, ih]; simp [List.append_assoc]

/-- Overwriting a part of the file. -/
theorem apply_over (a b b' c : List Byte) (h : b.length = b'.length) :
    FileOp.apply ⟨a ++ (b ++ c), a.length⟩ (.write b') = ⟨a ++ (b' ++ c), a.length + b'.length⟩ := by
  simp only [FileOp.apply, List.take_left', File.mk.injEq, and_true]
  rw [← List.drop_drop, List.drop_left, List.drop_left' h, List.append_assoc]

theorem foldl_over (a b b' c : List Byte) (h : b.length = b'.length) :
    (b'.map fun x => FileOp.write [x]).foldl FileOp.apply ⟨a ++ (b ++ c), a.length⟩ = ⟨a ++ (b' ++ c), a.length + b'.length⟩ := by
  induction b' generalizing a b with
  | nil =>
    have : b = [] := List.eq_nil_of_length_eq_zero h
    subst this
    rfl
  | cons x b' ih =>
    obtain ⟨y, b, rfl⟩ : ∃ y t, b = y :: t := by
      cases b with
      | nil => simp at h
      | cons y t => exact ⟨y, t, rfl⟩
    rw [List.map_cons, List.foldl_cons, show a ++ (y :: b ++ c) = a ++ ([y] ++ (b ++ c)) by simp, apply_over a [y] [x] _ rfl]
    have e : (⟨a ++ ([x] ++ (b ++ c)), a.length + [x].length⟩ : File) = ⟨(a ++ [x]) ++ (b ++ c), (a ++ [x]).length⟩ := by simp
    rw [e, ih (a ++ [x]) b (by simpa using h)]
    simp
    omega

/-- The operations before closing, as blocks of bytes. -/
def headBlocks (channels rate : Nat) : List (List Byte) :=
  [fourcc "RIFF", le 4 36, fourcc "WAVE", fourcc "fmt ", le 4 16,
   le 2 3, le 2 (channels % 2 ^ 16), le 4 rate, le 4 (32 * rate * channels % 2 ^ 32 / 8),
   le 2 (channels * 32 % 2 ^ 32 / 8 % 2 ^ 16), le 2 32, fourcc "data", le 4 0]

/-- The header of the files written. -/
def whead (channels rate r d : Nat) : List Byte :=
  header 3 (channels % 2 ^ 16) rate (32 * rate * channels % 2 ^ 32 / 8) (channels * 32 % 2 ^ 32 / 8 % 2 ^ 16) 32 r d

theorem initWrite_eq (channels rate : Nat) : initWrite channels rate = (headBlocks channels rate).map FileOp.write := rfl

theorem headBlocks_flatten (channels rate : Nat) : (headBlocks channels rate).flatten = whead channels rate 36 0 := by
  simp [headBlocks, whead, header]

theorem whead_length (channels rate r d : Nat) : (whead channels rate r d).length = 44 := header_length _ _ _ _ _ _ _ _

theorem floatBytes_length (xs : List (BitVec 32)) : (floatBytes xs).length = 4 * xs.length := by
  induction xs with
  | nil => rfl
  | cons x xs ih =>
    show (le 4 x.toNat ++ floatBytes xs).length = _
    rw [List.length_append, ih, le_length, List.length_cons]; omega

theorem floatBytes_append (a b : List (BitVec 32)) : floatBytes (a ++ b) = floatBytes a ++ floatBytes b := List.flatMap_append

/-- The blocks of bytes written between opening and closing. -/
def dataBlocks (blocks : List (List (BitVec 32))) : List (List Byte) := blocks.flatMap fun xs => if xs = [] then [] else [floatBytes xs]

theorem dataBlocks_flatten (blocks : List (List (BitVec 32))) : (dataBlocks blocks).flatten = floatBytes blocks.flatten := by
  induction blocks with
  | nil => rfl
  | cons b bs ih =>
    rw [List.flatten_cons, floatBytes_append, ← ih]
    show ((if b = [] then [] else [floatBytes b]) ++ dataBlocks bs).flatten = _
    split
    · rename_i h; subst h; rfl
    · simp

theorem writeBlocks_eq (blocks : List (List (BitVec 32))) : blocks.flatMap writeBlock = (dataBlocks blocks).map FileOp.write := by
  induction blocks with
  | nil => rfl
  | cons b bs ih =>
    rw [List.flatMap_cons, ih]
    show _ = ((if b = [] then [] else [floatBytes b]) ++ dataBlocks bs).map _
    rw [List.map_append, writeBlock]
    split <;> rfl

theorem closeWrite_eq (n : Nat) : closeWrite (4 * n) =
    [.seek 4, .write (le 4 (riffSize (4 * n))), .seek 40, .write (le 4 (dataSizeField (4 * n)))] := by
  unfold closeWrite
  rw [if_neg (by omega)]
  rfl

theorem seek_apply (f : File) (p : Nat) : FileOp.apply f (.seek p) = ⟨f.bytes, p⟩ := rfl

theorem whead_split4 (channels rate r d : Nat) : ∃ t, ∀ r', whead channels rate r' d = fourcc "RIFF" ++ (le 4 r' ++ t) := ⟨_, fun _ => rfl⟩

theorem whead_split40 (channels rate r d : Nat) : ∃ t, t.length = 40 ∧ ∀ d', whead channels rate r d' = t ++ le 4 d' := by
  refine ⟨(whead channels rate r 0).take 40, by rw [List.length_take, whead_length]; rfl, fun d' => ?_⟩
  have e : ∀ d', whead channels rate r d' = (fourcc "RIFF" ++ (le 4 r ++ (fourcc "WAVE" ++ (fourcc "fmt " ++ (le 4 16 ++ (le 2 3 ++ (le 2 (channels % 2 ^ 16) ++
    (le 4 rate ++ (le 4 (32 * rate * channels % 2 ^ 32 / 8) ++ (le 2 (channels * 32 % 2 ^ 32 / 8 % 2 ^ 16) ++ (le 2 32 ++ fourcc "data"))))))))))) ++ le 4 d' := by
    intro d'; simp [whead, header, List.append_assoc]
  rw [e d', e 0, List.take_left' (by simp)]

/-- The file at the end of a session. -/
theorem session_file (channels rate : Nat) (blocks : List (List (BitVec 32))) :
    (fileAfter (session channels rate blocks)).bytes =
      whead channels rate (riffSize (4 * blocks.flatten.length)) (dataSizeField (4 * blocks.flatten.length)) ++ floatBytes blocks.flatten := by
  unfold fileAfter session
  rw [floatBytes_length, closeWrite_eq, initWrite_eq, writeBlocks_eq, ← List.map_append, List.foldl_append]
  have h := foldl_writes [] (headBlocks channels rate ++ dataBlocks blocks)
  rw [List.nil_append, List.flatten_append, headBlocks_flatten, dataBlocks_flatten] at h
  rw [show (⟨[], 0⟩ : File) = ⟨[], ([] : List Byte).length⟩ from rfl, h]
  generalize riffSize (4 * blocks.flatten.length) = R
  generalize dataSizeField (4 * blocks.flatten.length) = D
  generalize floatBytes blocks.flatten = data
  simp only [List.foldl_cons, List.foldl_nil, seek_apply]
  obtain ⟨t, ht⟩ := whead_split4 channels rate 36 0
  rw [ht 36, List.append_assoc, List.append_assoc]
  have h4 := apply_over (fourcc "RIFF") (le 4 36) (le 4 R) (t ++ data) (by simp)
  rw [len_RIFF] at h4
  rw [h4]
  simp only
  rw [← List.append_assoc (le 4 R), ← List.append_assoc (fourcc "RIFF"), ← ht R]
  obtain ⟨u, hu, hu'⟩ := whead_split40 channels rate R 0
  rw [hu' 0, List.append_assoc]
  have h40 := apply_over u (le 4 0) (le 4 D) data (by simp)
  rw [hu] at h40
  rw [h40, hu' D, List.append_assoc]

/-! ## Opening what was written -/

theorem riffSize_bounds (n : Nat) : 36 ≤ riffSize n ∧ riffSize n < 4294967296 := by unfold riffSize; split <;> omega

theorem dataSizeField_bounds (n : Nat) : dataSizeField n < 4294967296 ∧ dataSizeField n ≤ n := by unfold dataSizeField; split <;> omega

theorem align_eq {channels : Nat} (h : channels < 4294967296) : channels * 32 % 2 ^ 32 / 8 % 2 ^ 16 = 4 * channels % 65536 := by
  norm_num
  omega

/-- Opening a file with the header of a writer. -/
theorem init_whead (channels rate r d : Nat) (data : List Byte) (hc : channels < 4294967296) (hrate : rate < 4294967296) (hr : r < 4294967296)
    (hd : d < 4294967296) :
    init (whead channels rate r d ++ data) =
      if r < 36 ∨ rate = 0 ∨ channels % 65536 = 0 ∨ 4 * channels % 65536 / (channels % 65536) = 0 then none
      else some ⟨⟨whead channels rate r d ++ data, 44⟩, 3, rate, channels % 65536, 32, 4 * channels % 65536 / (channels % 65536),
        d / (4 * channels % 65536 / (channels % 65536)), d, 44, d, 4 * channels % 65536⟩ := by
  have h2 : channels % 2 ^ 16 = channels % 65536 := by norm_num
  unfold whead
  rw [align_eq hc, h2, init_header 3 _ rate _ _ 32 r d data (by omega) (by omega) (by decide) (by omega) hrate (by omega) (by omega) hr hd]
  have ht : ∀ a b c, totalCount 3 d a b c = d / b := by
    intro a b c; unfold totalCount; rw [if_neg (by omega), if_neg (by omega)]
  rw [ht]
  generalize channels % 65536 = c
  generalize 4 * channels % 65536 = a
  by_cases h36 : r < 36
  · rw [if_pos h36, if_pos (Or.inl h36)]
  rw [if_neg h36]
  by_cases hz : rate = 0 ∨ c = 0 ∨ 32 = 0 ∨ a = 0
  · rw [if_pos hz, if_pos]
    rcases hz with h | h | h | h
    · exact Or.inr (Or.inl h)
    · exact Or.inr (Or.inr (Or.inl h))
    · omega
    · subst h; right; right; right; simp
  rw [if_neg hz]
  by_cases hb : a / c = 0
  · rw [if_pos hb, if_pos (Or.inr (Or.inr (Or.inr hb)))]
  · rw [if_neg hb, if_neg]
    simp only [not_or] at hz ⊢
    exact ⟨h36, hz.1, hz.2.1, hb⟩

theorem groups_floatBytes (xs : List (BitVec 32)) (rest : List Byte) (m : Nat) (h : m ≤ xs.length) :
    groups 4 m (floatBytes xs ++ rest) = (xs.take m).map fun x => le 4 x.toNat := by
  induction xs generalizing m with
  | nil =>
    have : m = 0 := by simpa using h
    subst this; rfl
  | cons x xs ih =>
    cases m with
    | zero => rfl
    | succ m =>
      have e : floatBytes (x :: xs) = le 4 x.toNat ++ floatBytes xs := rfl
      rw [e, List.append_assoc, groups, List.take_left' (le_length _ _), List.drop_left' (le_length _ _), ih m (by simpa using h)]
      rfl

/-- A file with the header of a writer and a smaller size is a tape with the first samples. -/
theorem good_whead (channels rate r m : Nat) (xs : List (BitVec 32)) (hc0 : 0 < channels) (hc : channels < 16384) (hrate0 : 0 < rate)
    (hrate : rate < 4294967296) (hr : 36 ≤ r) (hr' : r < 4294967296) (hm : m ≤ xs.length) (hm' : 4 * m < 4294967296) :
    ∃ w, init (whead channels rate r (4 * m) ++ floatBytes xs) = some w ∧ w.channels = channels ∧ w.rate = rate ∧ w.bps = 4 ∧ w.total = m ∧ Good w ∧
      avail w = (xs.take m).map fun x => le 4 x.toNat := by
  have h1 : channels % 65536 = channels := Nat.mod_eq_of_lt (by omega)
  have h2 : 4 * channels % 65536 = 4 * channels := Nat.mod_eq_of_lt (by omega)
  have h3 : 4 * channels / channels = 4 := Nat.mul_div_cancel _ hc0
  have e := init_whead channels rate r (4 * m) (floatBytes xs) (by omega) hrate hr' hm'
  rw [h1, h2, h3, if_neg (by omega), Nat.mul_div_cancel_left _ (by omega)] at e
  refine ⟨_, e, rfl, rfl, rfl, rfl, ?_, ?_⟩
  · refine ⟨Or.inr (Or.inl rfl), by simp, by simp, ?_, hm', rfl, toI32_small (by simp), by simp, ?_⟩
    · show 4 * m = m * 4; omega
    · show 44 + 4 * m ≤ _
      rw [List.length_append, whead_length, floatBytes_length]; omega
  · have hch : chunk ⟨⟨whead channels rate r (4 * m) ++ floatBytes xs, 44⟩, 3, rate, channels, 32, 4, m, 4 * m, 44, 4 * m, 4 * channels⟩ =
        (floatBytes xs).take (4 * m) := by
      show List.take (4 * m) (List.drop 44 _) = _
      rw [List.drop_left' (whead_length _ _ _ _)]
    rw [avail, hch]
    show groups 4 (((floatBytes xs).take (4 * m)).length / 4) _ = _
    rw [List.length_take, floatBytes_length, Nat.min_eq_left (by omega), Nat.mul_div_cancel_left _ (by omega), groups_take (by omega)]
    have := groups_floatBytes xs [] m hm
    rw [List.append_nil] at this
    exact this

end DrWav
end Verif
