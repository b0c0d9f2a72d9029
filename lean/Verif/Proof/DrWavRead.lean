import Verif.Proof.DrWav
/-!
# Lemmas on reading and seeking in WAV files
-/
namespace Verif
namespace DrWav

/-! ## Groups of bytes -/

theorem groups_length (s k : Nat) (b : List Byte) : (groups s k b).length = k := by
  induction k generalizing b with
  | zero => rfl
  | succ k ih => simp [groups, ih]

theorem groups_take {s k m : Nat} {b : List Byte} (h : k * s ≤ m) : groups s k (b.take m) = groups s k b := by
  induction k generalizing b m with
  | zero => rfl
  | succ k ih =>
    have h' : k * s + s ≤ m := by rw [Nat.succ_mul] at h; exact h
    simp only [groups]
    rw [List.take_take, Nat.min_eq_left (by omega), List.drop_take, ih (by omega)]

theorem groups_add (s a c : Nat) (b : List Byte) : groups s (a + c) b = groups s a b ++ groups s c (b.drop (a * s)) := by
  induction a generalizing b with
  | zero => simp [groups]
  | succ a ih =>
    rw [Nat.succ_add]
    simp only [groups, ih, List.cons_append, List.drop_drop]
    rw [Nat.succ_mul, Nat.add_comm s]

theorem groups_take_list (s k n : Nat) (b : List Byte) : (groups s k b).take n = groups s (min n k) b := by
  rcases Nat.le_total n k with h | h
  · obtain ⟨c, rfl⟩ := Nat.exists_eq_add_of_le h
    rw [groups_add, List.take_left' (groups_length _ _ _), Nat.min_eq_left h]
  · rw [List.take_of_length_le (by rw [groups_length]; exact h), Nat.min_eq_right h]

theorem groups_drop_list (s k n : Nat) (b : List Byte) : (groups s k b).drop n = groups s (k - n) (b.drop (n * s)) := by
  rcases Nat.le_total n k with h | h
  · obtain ⟨c, rfl⟩ := Nat.exists_eq_add_of_le h
    rw [groups_add, List.drop_left' (groups_length _ _ _), Nat.add_sub_cancel_left]
  · rw [List.drop_eq_nil_of_le (by rw [groups_length]; exact h), Nat.sub_eq_zero_of_le h]; rfl

/-! ## Reading -/

/-- What is left of the data chunk: the bytes that exist in the file. -/
def chunk (w : Wav) : List Byte := (w.file.bytes.drop w.file.pos).take w.remaining

/-- The samples that are left. -/
def avail (w : Wav) : List (List Byte) := groups w.bps ((chunk w).length / w.bps) (chunk w)

/-- The state after `l` bytes. -/
def advance (w : Wav) (l : Nat) : Wav := { w with file := { w.file with pos := w.file.pos + l }, remaining := w.remaining - l }

theorem advance_zero (w : Wav) : advance w 0 = w := rfl

theorem advance_advance (w : Wav) (a b : Nat) : advance (advance w a) b = advance w (a + b) := by
  simp [advance, Nat.add_assoc, Nat.sub_sub]

theorem chunk_advance (w : Wav) (l : Nat) : chunk (advance w l) = (chunk w).drop l := by
  simp [chunk, advance, List.drop_take, List.drop_drop]

theorem avail_advance (w : Wav) (n : Nat) : avail (advance w (n * w.bps)) = (avail w).drop n := by
  unfold avail
  rw [groups_drop_list, chunk_advance]
  simp only [List.length_drop]
  show groups w.bps (((chunk w).length - n * w.bps) / w.bps) _ = _
  rw [Nat.mul_comm n, Nat.sub_mul_div]

theorem avail_length (w : Wav) : (avail w).length = (chunk w).length / w.bps := groups_length _ _ _

theorem chunk_length_le (w : Wav) : (chunk w).length ≤ w.remaining := by simp [chunk]

theorem readRaw_eq (w : Wav) (n : Nat) : readRaw w n = ((chunk w).take n, advance w (min n (chunk w).length)) := by
  unfold readRaw
  split
  · rename_i h; subst h; simp [advance_zero]
  · simp only [fread]
    have e : (w.file.bytes.drop w.file.pos).take (min n w.remaining) = (chunk w).take n := by
      rw [chunk, List.take_take]
    rw [e]
    simp [advance, List.length_take]

theorem min_mul_div (n l s : Nat) (hs : 0 < s) : min (n * s) l / s = min n (l / s) := by
  rcases Nat.le_total (n * s) l with h | h
  · rw [Nat.min_eq_left h, Nat.mul_div_cancel _ hs, Nat.min_eq_left ((Nat.le_div_iff_mul_le hs).2 h)]
  · rw [Nat.min_eq_right h, Nat.min_eq_right]
    exact Nat.div_le_of_le_mul (by rw [Nat.mul_comm]; exact h)

theorem read_eq (w : Wav) (n : Nat) (hn : n ≠ 0) (hs : 0 < w.bps) (hc : compressed w.tag = false) :
    read w n = (min n ((chunk w).length / w.bps), (chunk w).take (n * w.bps), advance w (min (n * w.bps) (chunk w).length)) := by
  unfold read
  rw [if_neg (by simp [hn, hc]), readRaw_eq]
  simp only [List.length_take]
  rw [min_mul_div _ _ _ hs]

theorem groups_read (w : Wav) (n : Nat) :
    groups w.bps (min n ((chunk w).length / w.bps)) ((chunk w).take (n * w.bps)) = (avail w).take n := by
  rw [groups_take, avail, groups_take_list]
  exact Nat.mul_le_mul_right _ (Nat.min_le_left _ _)

theorem readLoop_eq (w : Wav) (n : Nat) (hs : 0 < w.bps) (hs' : w.bps ≤ 4096) (hc : compressed w.tag = false) :
    readLoop w.bps w n = ((avail w).take n, advance w (min (n * w.bps) (chunk w).length)) := by
  induction n using Nat.strong_induction_on generalizing w with
  | _ n ih =>
    rw [readLoop]
    by_cases h0 : n = 0
    · subst h0; simp [advance_zero]
    rw [if_neg h0]
    have hq : 0 < 4096 / w.bps := Nat.div_pos hs' hs
    generalize hm : min n (4096 / w.bps) = m
    have hm0 : m ≠ 0 := by omega
    have hmn : m ≤ n := by omega
    clear hm hq
    have hr := read_eq w m hm0 hs hc
    have hg := groups_read w m
    have hav := avail_length w
    generalize hl : (chunk w).length = l at hr hg hav
    generalize hk : l / w.bps = k at hr hg hav
    simp only
    rw [hr]
    simp only
    have hk1 : k * w.bps ≤ l := by rw [← hk]; exact Nat.div_mul_le_self _ _
    have hk2 : l < (k + 1) * w.bps := by rw [← hk, Nat.add_mul, Nat.one_mul]; exact Nat.lt_div_mul_add hs
    split
    · rename_i hz
      have hk0 : k = 0 := by omega
      subst hk0
      have hl1 : l < w.bps := by simpa using hk2
      have h1 : w.bps ≤ m * w.bps := Nat.le_mul_of_pos_left _ (by omega)
      have h2 : w.bps ≤ n * w.bps := Nat.le_mul_of_pos_left _ (by omega)
      have : avail w = [] := List.eq_nil_of_length_eq_zero hav
      rw [this, Nat.min_eq_right (by omega), Nat.min_eq_right (by omega)]
      simp
    · rename_i hz
      rw [hg]
      have hmin : min m k ≤ n := by omega
      rw [show readLoop w.bps (advance w (min (m * w.bps) l)) (n - min m k) = _ from
        ih (n - min m k) (by omega) (advance w (min (m * w.bps) l)) hs hs' hc]
      simp only [advance_advance, chunk_advance, List.length_drop, hl, Prod.mk.injEq]
      show _ ∧ advance w (min (m * w.bps) l + min ((n - min m k) * w.bps) (l - min (m * w.bps) l)) = _
      rcases Nat.lt_or_ge k m with h | h
      swap
      · have h3 : m * w.bps ≤ l := le_trans (Nat.mul_le_mul_right _ h) hk1
        rw [Nat.min_eq_left h3, Nat.min_eq_left h]
        constructor
        · rw [avail_advance]
          conv_rhs => rw [← Nat.add_sub_cancel' hmn, List.take_add]
        · congr 1
          have h4 : m * w.bps + (n - m) * w.bps = n * w.bps := by rw [← Nat.add_mul, Nat.add_sub_cancel' hmn]
          omega
      · have h3 : l ≤ m * w.bps := by
          have : (k + 1) * w.bps ≤ m * w.bps := Nat.mul_le_mul_right _ h
          omega
        have h4 : l ≤ n * w.bps := le_trans h3 (Nat.mul_le_mul_right _ hmn)
        rw [Nat.min_eq_right h3, Nat.min_eq_right h.le, Nat.min_eq_right h4]
        constructor
        · have hc0 : chunk (advance w l) = [] := by rw [chunk_advance, ← hl, List.drop_length]
          have ha0 : avail (advance w l) = [] := by
            apply List.eq_nil_of_length_eq_zero
            rw [avail_length, hc0]; simp
          rw [ha0, List.take_nil, List.append_nil, List.take_of_length_le (by omega), List.take_of_length_le (by omega)]
        · simp

/-- Formats with a fixed number of bytes per sample, and bytes per sample that suit them: PCM, floating point, and A-law and mu-law with one byte. -/
def Plain (w : Wav) : Prop := w.tag = 1 ∨ w.tag = 3 ∨ (w.tag = 6 ∨ w.tag = 7) ∧ w.bps = 1

theorem Plain.compressed {w : Wav} (h : Plain w) : compressed w.tag = false := by
  rcases h with h | h | ⟨h | h, -⟩ <;> simp [DrWav.compressed, h]

theorem readF32_eq (w : Wav) (n : Nat) (ht : Plain w) (hs : 0 < w.bps) (hs' : w.bps ≤ 4096) :
    readF32 w n = some ((avail w).take n, advance w (min (n * w.bps) (chunk w).length)) := by
  have hc := ht.compressed
  unfold readF32
  by_cases h0 : n = 0
  · subst h0; simp [advance_zero]
  rw [if_neg h0]
  by_cases h4 : w.tag = 3 ∧ w.bps = 4
  · rw [if_pos h4]
    simp only [read_eq w n h0 hs hc]
    rw [← groups_read w n, h4.2]
  · rw [if_neg h4]
    by_cases h13 : w.tag = 1 ∨ w.tag = 3
    · rw [if_pos h13, if_neg (by omega), readLoop_eq w n hs hs' hc]
    · obtain ⟨h67, h1⟩ : (w.tag = 6 ∨ w.tag = 7) ∧ w.bps = 1 := by
        rcases ht with h | h | h
        · exact absurd (Or.inl h) h13
        · exact absurd (Or.inr h) h13
        · exact h
      rw [if_neg h13, if_pos h67, if_neg (by omega), ← readLoop_eq w n hs hs' hc, h1]

/-! ## Seeking -/

theorem posMax_eq : posMax = 2 ^ 63 := posMax_def

theorem fseekCur_ok (f : File) (o : Nat) (h : f.pos + o < 2 ^ 63) : fseekCur f o = some { f with pos := f.pos + o } := by
  unfold fseekCur
  rw [posMax_eq, if_pos]
  · rfl
  · constructor
    · omega
    · have : ((2:ℤ) ^ 63) = ((2 ^ 63 : ℕ) : ℤ) := by norm_num
      rw [this]
      exact_mod_cast h

theorem u64_ofNat {n : Nat} (h : n < 2 ^ 64) : u64 (n : Int) = n := by
  unfold u64
  have : ((2:ℤ) ^ 64) = ((2 ^ 64 : ℕ) : ℤ) := by norm_num
  rw [this, ← Int.natCast_mod, Int.toNat_natCast, Nat.mod_eq_of_lt h]

theorem seekLoopFuel_eq (k : Nat) (w : Wav) (o : Nat) (hk : o ≤ k) (hr : o ≤ w.remaining) (hr' : w.remaining < 2 ^ 64)
    (hp : w.file.pos + o < 2 ^ 63) : seekLoopFuel k w o = (true, advance w o) := by
  induction k generalizing w o with
  | zero =>
    have : o = 0 := by omega
    subst this
    rw [seekLoopFuel, advance_zero]
  | succ k ih =>
    rw [seekLoopFuel]
    split
    · rename_i h; subst h; rw [advance_zero]
    rename_i h0
    simp only
    generalize hi : (if intMax < o then intMax else o) = i
    have hio : i ≤ o := by
      rw [← hi]; split
      · omega
      · exact Nat.le_refl _
    have hi0 : 0 < i := by
      rw [← hi]; split
      · exact intMax_pos
      · omega
    clear hi
    rw [fseekCur_ok _ _ (by omega)]
    simp only
    have e1 : ((w.remaining : Int) - (i : Nat)) = ((w.remaining - i : ℕ) : Int) := by omega
    rw [e1, u64_ofNat (by omega)]
    have e2 : ({ w with file := { w.file with pos := w.file.pos + i }, remaining := w.remaining - i } : Wav) = advance w i := rfl
    rw [e2, ih (advance w i) (o - i) (by omega) (by simp only [advance]; omega) (by simp only [advance]; omega) (by simp only [advance]; omega),
      advance_advance, Nat.add_sub_cancel' hio]

theorem seekLoop_eq (w : Wav) (o : Nat) (hr : o ≤ w.remaining) (hr' : w.remaining < 2 ^ 64)
    (hp : w.file.pos + o < 2 ^ 63) : seekLoop w o = (true, advance w o) := seekLoopFuel_eq o w o (Nat.le_refl _) hr hr' hp

theorem toI32_small {n : Nat} (h : n < 2147483648) : toI32 n = n := by
  unfold toI32
  rw [Nat.mod_eq_of_lt (by omega), if_pos h]

/-! ## The tape -/

/-- A reader that has just been opened on a complete file of PCM or float samples. -/
structure Good (w : Wav) : Prop where
  tag : Plain w
  bps : 0 < w.bps
  bps' : w.bps ≤ 4096
  size : w.dataSize = w.total * w.bps
  size' : w.dataSize < 4294967296
  remaining : w.remaining = w.dataSize
  pos : toI32 w.dataPos = w.file.pos
  pos' : w.file.pos < 2147483648
  present : w.file.pos + w.dataSize ≤ w.file.bytes.length

/-- The state with `p` samples read. -/
def stateAt (w : Wav) (p : Nat) : Wav := advance w (p * w.bps)

theorem Good.chunk_length {w : Wav} (g : Good w) : (chunk w).length = w.total * w.bps := by
  have := g.present
  have := g.pos
  have := g.remaining
  have := g.size
  simp [chunk]
  omega

theorem Good.avail_length {w : Wav} (g : Good w) : (avail w).length = w.total := by
  rw [DrWav.avail_length, g.chunk_length, Nat.mul_div_cancel _ g.bps]

theorem Good.compressed {w : Wav} (g : Good w) : compressed w.tag = false := by
  exact g.tag.compressed

theorem Good.read {w : Wav} (g : Good w) {p : Nat} (hp : p ≤ w.total) (n : Nat) :
    readF32 (stateAt w p) n = some (((avail w).drop p).take n, stateAt w (min (p + n) w.total)) := by
  have e := readF32_eq (stateAt w p) n g.tag g.bps g.bps'
  rw [e]
  unfold stateAt
  rw [avail_advance, chunk_advance, advance_advance, List.length_drop, g.chunk_length]
  congr 2
  show advance w (p * w.bps + min (n * w.bps) (w.total * w.bps - p * w.bps)) = _
  congr 1
  have h1 : p * w.bps ≤ w.total * w.bps := Nat.mul_le_mul_right _ hp
  rcases Nat.le_total (p + n) w.total with h | h
  · have h2 : (p + n) * w.bps ≤ w.total * w.bps := Nat.mul_le_mul_right _ h
    rw [Nat.min_eq_left h]
    rw [Nat.add_mul] at h2 ⊢
    omega
  · have h2 : w.total * w.bps ≤ (p + n) * w.bps := Nat.mul_le_mul_right _ h
    rw [Nat.min_eq_right h]
    rw [Nat.add_mul] at h2
    omega

theorem Good.restart {w : Wav} (g : Good w) (p : Nat) : restart (stateAt w p) = some w := by
  unfold DrWav.restart stateAt advance
  simp only
  rw [g.pos]
  unfold fseekSet
  rw [if_pos (by omega)]
  simp only [Option.map_some, Int.toNat_natCast]
  obtain ⟨⟨_, _⟩, _, _, _, _, _, _, _, _, _, _⟩ := w
  have h2 := g.remaining
  simp only at h2
  subst h2
  rfl

theorem Good.position {w : Wav} (g : Good w) {p : Nat} (hp : p ≤ w.total) : position (stateAt w p) = .ok p := by
  unfold DrWav.position stateAt advance
  simp only
  have hb := g.bps
  rw [if_neg (by omega), g.remaining, g.size, ← Nat.sub_mul, Nat.mul_div_cancel _ g.bps]
  have e : ((w.total : Int) - ((w.total - p : ℕ) : Int)) = ((p : ℕ) : Int) := by omega
  have h1 : p ≤ w.total * w.bps := le_trans hp (Nat.le_mul_of_pos_right _ hb)
  have h2 := g.size
  have h3 := g.size'
  rw [e, u64_ofNat]
  have : (4294967296 : ℕ) < 2 ^ 64 := by norm_num
  omega

theorem Good.seek {w : Wav} (g : Good w) {p : Nat} (hp : p ≤ w.total) (t : Nat) :
    seek (stateAt w p) t = .ok (some (true, stateAt w (if w.total = 0 then p else min t (w.total - 1)))) := by
  unfold DrWav.seek
  have et : (stateAt w p).total = w.total := rfl
  have eb : (stateAt w p).bps = w.bps := rfl
  have eg : (stateAt w p).tag = w.tag := rfl
  rw [et, eb, eg]
  by_cases h0 : w.total = 0
  · rw [if_pos h0, if_pos h0]
  rw [if_neg h0, if_neg h0]
  simp only
  have es : (if w.total ≤ t then w.total - 1 else t) = min t (w.total - 1) := by
    split <;> omega
  rw [es, g.compressed]
  generalize hs : min t (w.total - 1) = s
  have hst : s < w.total := by omega
  have er : (stateAt w p).remaining = w.total * w.bps - p * w.bps := by
    show w.remaining - _ = _
    rw [g.remaining, g.size]
  have hpb : p * w.bps ≤ w.total * w.bps := Nat.mul_le_mul_right _ hp
  have hsb : s * w.bps ≤ w.total * w.bps := Nat.mul_le_mul_right _ hst.le
  have g1 := g.size
  have g2 := g.size'
  have g4 := g.pos'
  have k1 : (4294967296 : ℕ) < 2 ^ 64 := by norm_num
  have k2 : (4294967296 : ℕ) + 2147483648 < 2 ^ 63 := by norm_num
  rw [er, if_neg (by simp), if_neg (by omega)]
  have ec : w.total * w.bps - (w.total * w.bps - p * w.bps) = p * w.bps := by omega
  rw [ec]
  have epos : (stateAt w p).file.pos = w.file.pos + p * w.bps := rfl
  split
  · rename_i hlt
    rw [seekLoop_eq _ _ (by rw [er]; omega) (by rw [er]; omega) (by rw [epos]; omega)]
    unfold stateAt
    rw [advance_advance, Nat.add_sub_cancel' hlt.le]
  · rw [g.restart]
    simp only
    have hrem := g.remaining
    rw [seekLoop_eq _ _ (by omega) (by omega) (by omega)]
    rfl

end DrWav
end Verif
