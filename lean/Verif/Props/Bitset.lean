import Verif.Proof.Bitset
/-!
# Properties C12–C15: `bitset`, `bitstream_acf`

All statements are in terms of `get`.  `Bits b f` says that reading any position `k` of `b` through the
public `get` yields `f k`.
-/
namespace Verif
open Bitset
variable {W : Nat}

/-- The observable contents of a bitset: `get(k)` succeeds and returns `f k` for every `k < size()`. -/
def Bits (b : Bitset W) (f : Nat → Bool) : Prop := ∀ k, k < b.size → b.get k = .ok (f k)

theorem bits_exists (hW : 0 < W) (b : Bitset W) : Bits b (bitAt b.bits) := fun k hk => get_ok hW b k hk

theorem bits_mk (hW : 0 < W) (n : Nat) : Bits (mk' W n) (fun _ => false) := by
  intro k hk
  rw [get_ok hW _ k hk]
  congr 1
  simp only [bitAt, mk']
  rcases h : (List.replicate ((n + W - 1) / W) (0 : BitVec W))[k / W]? with _ | v
  · rfl
  · have := List.mem_of_getElem? h
    rw [List.mem_replicate] at this
    rw [this.2]; simp

theorem size_of_len {b b' : Bitset W} (h : b'.bits.length = b.bits.length) : b'.size = b.size := by
  rw [size, size, h]

/-- One call to `set(i, v)`, when the mask is right in every bit of the word. -/
theorem set_ok (hW : 0 < W) (b : Bitset W) (i : Nat) (v : Bool) (hi : i < b.size) (m : BitVec W)
    (hm : setMask W (i % W) = .ok m) :
    ∃ b', b.set i v = .ok b' ∧ b'.bits.length = b.bits.length ∧
      ∀ k, k < b.size → bitAt b'.bits k =
        if k / W = i / W ∧ m.getLsbD (k % W) then v else bitAt b.bits k := by
  have h := div_lt_of_lt_size hi
  refine ⟨_, by rw [Bitset.set, if_neg (by omega), hm, readAt_ok h]; simp only [bind, Except.bind]; rw [writeAt_ok h]; rfl,
    by simp, ?_⟩
  intro k hk
  have hlt := Nat.mod_lt k hW
  show bitAt (b.bits.set _ _) k = _
  rw [bitAt_set hW _ _ _ h]
  by_cases hk2 : k / W = i / W
  · rw [if_pos hk2, bitAt_eq _ _ (by rw [hk2]; exact h)]
    simp only [hk2, negBool]
    by_cases hmk : m.getLsbD (k % W)
    · cases v <;> simp [hmk, hlt]
    · cases v <;> simp [hmk]
  · rw [if_neg hk2, if_neg (by simp [hk2])]

theorem setMask_low (k : Nat) (h1 : k < W) (h2 : k ≤ 30 ∨ (k < 32 ∧ W ≤ 32)) :
    ∃ m : BitVec W, setMask W k = .ok m ∧ ∀ j, j < W → m.getLsbD j = decide (j = k) := by
  refine ⟨(BitVec.twoPow 32 k).signExtend W, by rw [setMask, if_neg (by omega)], ?_⟩
  intro j hj
  rw [BitVec.getLsbD_signExtend, BitVec.msb_eq_getLsbD_last]
  simp only [BitVec.getLsbD_twoPow, hj, decide_true, Bool.true_and]
  by_cases hj32 : j < 32
  · simp only [hj32, if_true]
    by_cases hjk : j = k
    · subst hjk; simp [hj32]
    · rw [decide_eq_false (by omega : ¬ (k = j)), decide_eq_false hjk, Bool.and_false]
  · simp only [hj32, if_false]
    rw [decide_eq_false (by omega : ¬ (k = 32 - 1)), decide_eq_false (by omega : ¬ j = k), Bool.and_false]

/-- **C12** (word types of at most 32 bits, and bit positions 0–30 of every word of a 64-bit bitset):
after `set(i, v)`, `get(i)` is `v` and every other bit is unchanged.
Missing, because false of the code: positions 31–63 of the words of the default 64-bit bitset, see
`C12_word64_bit31` and `C12_word64_upper_half`. -/
theorem C12_set_get_partial (hW : 0 < W) (b : Bitset W) (f : Nat → Bool) (hf : Bits b f) (i : Nat) (v : Bool)
    (hi : i < b.size) (hw : W ≤ 32 ∨ i % W ≤ 30) :
    ∃ b', b.set i v = .ok b' ∧ b'.size = b.size ∧ Bits b' (fun k => if k = i then v else f k) := by
  have hml := Nat.mod_lt i hW
  obtain ⟨m, hm, hmb⟩ := setMask_low (W := W) (i % W) hml (by omega)
  obtain ⟨b', e, hl, hb⟩ := set_ok hW b i v hi m hm
  refine ⟨b', e, size_of_len hl, fun k hk => ?_⟩
  rw [size_of_len hl] at hk
  rw [get_ok hW _ _ (by rw [size_of_len hl]; exact hk), hb k hk, hmb _ (Nat.mod_lt k hW)]
  have hfk := hf k hk
  rw [get_ok hW _ _ hk] at hfk
  injection hfk with hfk
  rw [hfk]
  congr 1
  have : (k / W = i / W ∧ decide (k % W = i % W) = true) ↔ k = i := by
    rw [decide_eq_true_eq]
    constructor
    · intro h
      rw [← Nat.div_add_mod k W, ← Nat.div_add_mod i W, h.1, h.2]
    · rintro rfl; exact ⟨rfl, rfl⟩
  simp only [this]

/-- **C12, violated**: with 64-bit words, setting position 31 of a word sets or clears all of the word's
bits 31 to 63: the mask `1 << 31` is a negative `int` which is sign extended. -/
theorem C12_word64_bit31_violation (b : Bitset 64) (f : Nat → Bool) (hf : Bits b f) (i : Nat) (v : Bool)
    (hi : i < b.size) (hw : i % 64 = 31) :
    ∃ b', b.set i v = .ok b' ∧ Bits b' (fun k => if i ≤ k ∧ k < i + 33 then v else f k) := by
  have hm : setMask 64 (i % 64) = .ok ((BitVec.twoPow 32 31).signExtend 64) := by rw [hw]; rfl
  obtain ⟨b', e, hl, hb⟩ := set_ok (by omega) b i v hi _ hm
  refine ⟨b', e, fun k hk => ?_⟩
  rw [size_of_len hl] at hk
  rw [get_ok (by omega) _ _ (by rw [size_of_len hl]; exact hk), hb k hk]
  have hfk := hf k hk
  rw [get_ok (by omega) _ _ hk] at hfk
  injection hfk with hfk
  rw [hfk]
  congr 1
  have h1 : ((BitVec.twoPow 32 31).signExtend 64).getLsbD (k % 64) = decide (31 ≤ k % 64) := by
    have : ∀ j : Fin 64, ((BitVec.twoPow 32 31).signExtend 64).getLsbD j.1 = decide (31 ≤ j.1) := by decide
    exact this ⟨k % 64, by omega⟩
  rw [h1]
  have : (k / 64 = i / 64 ∧ decide (31 ≤ k % 64) = true) ↔ (i ≤ k ∧ k < i + 33) := by
    rw [decide_eq_true_eq]; omega
  simp only [this]

/-- **C12, violated**: with 64-bit words (the default `bitset<>`), `set(i, v)` at positions 32–63 of a word
shifts the `int` literal `1` by 32 or more, which is undefined behaviour. -/
theorem C12_word64_upper_half_violation (b : Bitset 64) (i : Nat) (v : Bool) (hi : i < b.size) (hw : 32 ≤ i % 64) :
    b.set i v = .error .badShift := by
  rw [Bitset.set, if_neg (by omega), setMask, if_pos hw]; rfl

/-- **C13** `set(i, n, v)` sets exactly the bits `[i, i+n)` that lie inside the bitset to `v`, leaves every
other bit unchanged and stays in bounds, for every `i ≤ size()` and every `n` such that `i + n` does not
overflow `std::size_t`. For `i > size()` it changes nothing. -/
theorem C13_set_range (hW : 0 < W) (b : Bitset W) (f : Nat → Bool) (hf : Bits b f) (i n : Nat) (v : Bool)
    (hb : b.size < 2 ^ 64) (hn : i + n < 2 ^ 64) :
    ∃ b', b.setRange i n v = .ok b' ∧ b'.size = b.size ∧
      Bits b' (fun k => if i ≤ k ∧ k < i + n then v else f k) := by
  by_cases hi : i ≤ b.size
  · obtain ⟨b', e, hl, hbb⟩ := setRange_ok hW b i n v hi hb hn
    refine ⟨b', e, size_of_len hl, fun k hk => ?_⟩
    rw [size_of_len hl] at hk
    rw [get_ok hW _ _ (by rw [size_of_len hl]; exact hk), hbb k hk]
    have hfk := hf k hk
    rw [get_ok hW _ _ hk] at hfk
    injection hfk with hfk
    rw [hfk]
  · refine ⟨b, by rw [setRange, if_pos (by omega)], rfl, fun k hk => ?_⟩
    show _ = Except.ok (if _ then _ else _)
    rw [hf k hk, if_neg (by omega)]

/-- `clear()` clears every bit. -/
theorem C13_clear (hW : 0 < W) (b : Bitset W) : b.clear.size = b.size ∧ Bits b.clear (fun _ => false) := by
  have hs : b.clear.size = b.size := by simp [size, clear]
  refine ⟨hs, fun k hk => ?_⟩
  rw [get_ok hW _ _ hk, bitAt_eq _ _ (div_lt_of_lt_size hk)]
  simp [clear]

/-- A new bitset has at least the requested number of bits, fewer than one word more, all clear. -/
theorem C13_construct (hW : 0 < W) (n : Nat) :
    n ≤ (mk' W n).size ∧ (mk' W n).size < n + W ∧ Bits (mk' W n) (fun _ => false) := by
  refine ⟨?_, ?_, bits_mk hW n⟩ <;>
  · simp only [size, mk', List.length_replicate]
    have h1 := Nat.div_add_mod (n + W - 1) W
    have h2 := Nat.mod_lt (n + W - 1) hW
    rw [Nat.mul_comm] at h1
    omega

theorem fillWords_two (x y : BitVec 64) (n : Nat) (v : BitVec 64) (h : 128 ≤ n) :
    fillWords [x, y] 1 n v = .error .oobWrite := by
  rw [fillWords, if_pos (by omega), writeAt_ok (by simp)]
  simp only [bind, Except.bind]
  rw [fillWords, if_pos (by omega)]
  simp [writeAt, bind, Except.bind]

/-- **C13, violated**: when `i + n` overflows `std::size_t` the clamp does not trigger and the call writes
out of bounds.  (`period_detector` reaches this with a negative length converted to `size_t`, see C21.) -/
theorem C13_overflow_violation (x y : BitVec 64) :
    (⟨[x, y]⟩ : Bitset 64).setRange 1 (2 ^ 64 - 1) true = .error .oobWrite := by
  have h1 : (⟨[x, y]⟩ : Bitset 64).size = 128 := rfl
  have h2 : ¬ ((1 + (2 ^ 64 - 1)) % 2 ^ 64 > 128) := by omega
  obtain ⟨n, hn⟩ : ∃ n, n = 2 ^ 64 - 1 := ⟨_, rfl⟩
  rw [← hn] at h2 ⊢
  have hmw : ∃ m, maskWord [x, y] (1 / 64) (~~~(BitVec.allOnes 64 >>> (64 - 1 % 64))) true = .ok [m, y] := ⟨_, rfl⟩
  obtain ⟨m, hm⟩ := hmw
  simp only [setRange, h1, h2, if_false]
  rw [if_neg (by omega), if_pos (by omega), if_neg (by omega), hm]
  simp only [bind, Except.bind]
  rw [if_neg (by omega), setTail, fillWords_two _ _ _ _ (by omega)]
  rfl

/-- **C14** (all indices but one): `get` and `set` never access memory out of bounds for any index other
than `size()`; beyond `size()`, `get` returns false and `set` does nothing.
Missing, because false of the code: the index `size()` itself, see `C14_index_size`. -/
theorem C14_in_bounds_partial (hW : 0 < W) (b : Bitset W) (i : Nat) (v : Bool) (hi : i ≠ b.size) :
    (∃ r, b.get i = .ok r) ∧ b.set i v ≠ .error .oobRead ∧ b.set i v ≠ .error .oobWrite ∧
    (b.size < i → b.get i = .ok false ∧ b.set i v = .ok b) := by
  rcases Nat.lt_or_ge b.size i with h | h
  · have h1 : b.get i = .ok false := by rw [Bitset.get, if_pos h]
    have h2 : b.set i v = .ok b := by rw [Bitset.set, if_pos h]
    rw [h1, h2]; simp
  · have hlt : i < b.size := by omega
    refine ⟨⟨_, get_ok hW b i hlt⟩, ?_, ?_, by omega⟩
    all_goals
      rcases hm : setMask W (i % W) with e | m
      · rw [Bitset.set, if_neg (by omega), hm]
        rw [setMask] at hm
        split at hm
        · injection hm with hm; rw [← hm]; simp [bind, Except.bind]
        · cases hm
      · obtain ⟨b', e, -⟩ := set_ok hW b i v hlt m hm
        rw [e]; simp

/-- **C14, violated**: the guard of `get` and `set` is `i > size()` instead of `i >= size()`, so that both
access the word one past the end when `i == size()`. -/
theorem C14_index_size_violation (hW : 0 < W) (b : Bitset W) (v : Bool) :
    b.get b.size = .error .oobRead ∧ b.set b.size v = .error .oobRead := by
  have h : b.size / W = b.bits.length := by rw [size]; exact Nat.mul_div_cancel _ hW
  have h2 : b.size % W = 0 := by rw [size]; exact Nat.mul_mod_left _ _
  have h3 : readAt b.bits (b.size / W) = .error .oobRead := by rw [h, readAt]; simp
  constructor
  · rw [Bitset.get, if_neg (by omega), h3]; rfl
  · rw [Bitset.set, if_neg (by omega), h2, setMask, if_neg (by omega), h3]; rfl

/-! ## `bitstream_acf` -/

theorem countP_range_add (n m : Nat) (p : Nat → Bool) :
    (List.range (n + m)).countP p = (List.range n).countP p + (List.range m).countP (fun j => p (n + j)) := by
  rw [List.range_add, List.countP_append, List.countP_map]; rfl

theorem word_count (l : List (BitVec 64)) (p : Nat) (hp : p < l.length) (v : BitVec 64) (g : Nat → Bool)
    (hv : ∀ j, j < 64 → v.getLsbD j = g (64 * p + j)) :
    countBits (l[p] ^^^ v) = (List.range 64).countP (fun j => bitAt l (64 * p + j) != g (64 * p + j)) := by
  rw [countBits]
  apply List.countP_congr
  intro j hj
  rw [List.mem_range] at hj
  have e1 : (64 * p + j) / 64 = p := by omega
  have e2 : (64 * p + j) % 64 = j := by omega
  have : bitAt l (64 * p + j) = l[p].getLsbD j := by simp [bitAt, e1, e2, hp]
  rw [this, BitVec.getLsbD_xor, hv j hj]

theorem getLsbD_word (l : List (BitVec 64)) (p j : Nat) (hp : p < l.length) (hj : j < 64) :
    l[p].getLsbD j = bitAt l (64 * p + j) := by
  have e1 : (64 * p + j) / 64 = p := by omega
  have e2 : (64 * p + j) % 64 = j := by omega
  simp [bitAt, e1, e2, hp]

theorem loopAligned_ok (l : List (BitVec 64)) (idx k p1 c : Nat) (h : idx + p1 + k ≤ l.length) :
    Acf.loopAligned l p1 (idx + p1) k c = .ok (c + (List.range (64 * k)).countP
      (fun j => bitAt l (64 * p1 + j) != bitAt l (64 * p1 + j + 64 * idx))) := by
  induction k generalizing p1 c with
  | zero => simp [Acf.loopAligned]
  | succ k ih =>
    have h1 : p1 < l.length := by omega
    have h2 : idx + p1 < l.length := by omega
    rw [Acf.loopAligned, readAt_ok h1, readAt_ok h2]
    simp only [bind, Except.bind]
    rw [show idx + p1 + 1 = idx + (p1 + 1) by omega, ih (p1 + 1) _ (by omega),
      show 64 * (k + 1) = 64 + 64 * k by omega, countP_range_add,
      word_count l p1 h1 _ (fun i => bitAt l (i + 64 * idx))
        (fun j hj => by rw [getLsbD_word l _ j h2 hj]; congr 1; omega)]
    rw [Nat.add_assoc]
    congr 3
    apply List.countP_congr
    intro j _
    rw [show 64 * (p1 + 1) + j = 64 * p1 + (64 + j) by omega]

theorem loopShifted_ok (l : List (BitVec 64)) (s idx k p1 c : Nat) (hs0 : 0 < s) (hs : s < 64)
    (h : idx + p1 + k < l.length) :
    Acf.loopShifted l s p1 (idx + p1) k c = .ok (c + (List.range (64 * k)).countP
      (fun j => bitAt l (64 * p1 + j) != bitAt l (64 * p1 + j + (64 * idx + s)))) := by
  induction k generalizing p1 c with
  | zero => simp [Acf.loopShifted]
  | succ k ih =>
    have h1 : p1 < l.length := by omega
    have h2 : idx + p1 < l.length := by omega
    have h3 : idx + p1 + 1 < l.length := by omega
    rw [Acf.loopShifted, readAt_ok h2, readAt_ok h3]
    simp only [bind, Except.bind]
    rw [if_neg (by omega), readAt_ok h1]
    simp only []
    have ih' := fun c => ih (p1 + 1) c (by omega)
    rw [show idx + (p1 + 1) = idx + p1 + 1 by omega] at ih'
    rw [ih', 
      show 64 * (k + 1) = 64 + 64 * k by omega, countP_range_add,
      word_count l p1 h1 _ (fun i => bitAt l (i + (64 * idx + s)))
        (fun j hj => by
          rw [BitVec.getLsbD_or, BitVec.getLsbD_ushiftRight, BitVec.getLsbD_shiftLeft]
          by_cases hc : s + j < 64
          · rw [getLsbD_word l _ _ h2 hc, decide_eq_true (by omega : j < 64 - s)]
            simp only [hj, decide_true, Bool.not_true, Bool.and_false, Bool.false_and, Bool.or_false]
            congr 1; omega
          · rw [BitVec.getLsbD_of_ge _ _ (by omega), decide_eq_false (by omega : ¬ j < 64 - s),
              getLsbD_word l _ _ (by omega) (by omega : j - (64 - s) < 64)]
            simp only [hj, decide_true, Bool.not_false, Bool.and_true, Bool.true_and, Bool.false_or]
            congr 1; omega)]
    rw [Nat.add_assoc]
    congr 3
    apply List.countP_congr
    intro j _
    rw [show 64 * (p1 + 1) + j = 64 * p1 + (64 + j) by omega]

/-- **C15** For a bitset of two or more 64-bit words and every lag `pos` up to half its size, the
autocorrelation reads only inside the bitset and returns the number of mismatches: the number of positions
`k` below the compared length `m` whose bit differs from the bit `pos` later. The compared length is one
word less than half of the bitset (and at least one word). -/
theorem C15_acf (b : Bitset 64) (f : Nat → Bool) (hf : Bits b f) (pos n : Nat) (hn : b.size = 64 * n)
    (h2 : 2 ≤ n) (hn64 : b.size < 2 ^ 64) (hpos : pos ≤ b.size / 2) :
    Acf.acf b pos = .ok ((List.range (64 * max (n / 2 - 1) 1)).countP fun k => f k != f (k + pos)) := by
  have hlen : b.bits.length = n := by rw [size] at hn; omega
  have hmid : Acf.midArray b = max (n / 2 - 1) 1 := by
    rw [Acf.midArray, hn, Nat.mul_div_cancel_left _ (by omega : 0 < 64)]
    rw [show (n / 2 + (2 ^ 64 - 1)) % 2 ^ 64 = n / 2 - 1 by omega]
  have hfb : ∀ k, k < b.size → bitAt b.bits k = f k := by
    intro k hk
    have := hf k hk
    rw [get_ok (by omega) _ _ hk] at this
    injection this
  have hcong : (List.range (64 * max (n / 2 - 1) 1)).countP (fun j => bitAt b.bits j != bitAt b.bits (j + pos)) =
      (List.range (64 * max (n / 2 - 1) 1)).countP fun k => f k != f (k + pos) := by
    apply List.countP_congr
    intro k hk
    rw [List.mem_range] at hk
    rw [hfb _ (by omega), hfb _ (by omega)]
  rw [← hcong]
  simp only [Acf.acf, hmid]
  by_cases hs : pos % 64 = 0
  · rw [if_pos hs]
    have := loopAligned_ok b.bits (pos / 64) (max (n / 2 - 1) 1) 0 0 (by rw [hlen]; omega)
    rw [Nat.add_zero] at this
    rw [this, Nat.zero_add]
    refine congrArg (fun p => Except.ok (List.countP p _)) (funext fun j => ?_)
    rw [Nat.mul_zero, Nat.zero_add, show j + 64 * (pos / 64) = j + pos by omega]
  · rw [if_neg hs]
    have := loopShifted_ok b.bits (pos % 64) (pos / 64) (max (n / 2 - 1) 1) 0 0 (by omega) (by omega)
      (by rw [hlen]; omega)
    rw [Nat.add_zero] at this
    rw [this, Nat.zero_add]
    refine congrArg (fun p => Except.ok (List.countP p _)) (funext fun j => ?_)
    rw [Nat.mul_zero, Nat.zero_add, show j + (64 * (pos / 64) + pos % 64) = j + pos by omega]

/-- The lag-0 autocorrelation is zero mismatches. -/
theorem C15_lag_zero (b : Bitset 64) (n : Nat) (hn : b.size = 64 * n) (h2 : 2 ≤ n) (hn64 : b.size < 2 ^ 64) :
    Acf.acf b 0 = .ok 0 := by
  rw [C15_acf b _ (bits_exists (by omega) b) 0 n hn h2 hn64 (by omega)]
  simp

/-- If the bitset is periodic with period `pos`, the autocorrelation at `pos` is zero; and the
autocorrelation never exceeds the compared length. -/
theorem C15_periodic (b : Bitset 64) (f : Nat → Bool) (hf : Bits b f) (pos n : Nat) (hn : b.size = 64 * n)
    (h2 : 2 ≤ n) (hn64 : b.size < 2 ^ 64) (hpos : pos ≤ b.size / 2) :
    ∃ c, Acf.acf b pos = .ok c ∧ c ≤ 64 * max (n / 2 - 1) 1 ∧
      ((∀ k, k + pos < b.size → f k = f (k + pos)) → c = 0) ∧
      (c = 0 → ∀ k, k < 64 * max (n / 2 - 1) 1 → f k = f (k + pos)) := by
  refine ⟨_, C15_acf b f hf pos n hn h2 hn64 hpos, ?_, ?_, ?_⟩
  · exact Nat.le_trans List.countP_le_length (by simp)
  · intro hp
    rw [List.countP_eq_zero]
    intro k hk
    rw [List.mem_range] at hk
    simp [hp k (by omega)]
  · intro h0 k hk
    rw [List.countP_eq_zero] at h0
    have := h0 k (List.mem_range.2 hk)
    simpa using this

theorem loopAligned_one (w : BitVec 64) (k c : Nat) : Acf.loopAligned [w] 0 0 (k + 2) c = .error .oobRead := by
  rw [Acf.loopAligned, readAt_ok (by simp)]
  simp only [bind, Except.bind]
  rw [Acf.loopAligned]
  simp [readAt, bind, Except.bind]

/-- **C15, violated** for a one-word bitset: `_mid_array` wraps around to `2^64 - 1` and the loop runs off
the end of the bitset. -/
theorem C15_one_word_violation (w : BitVec 64) : Acf.acf ⟨[w]⟩ 0 = .error .oobRead := by
  obtain ⟨k, hk⟩ : ∃ k, Acf.midArray ⟨[w]⟩ = k + 2 := ⟨2 ^ 64 - 3, by
    simp only [Acf.midArray, size, List.length_cons, List.length_nil]; omega⟩
  simp only [Acf.acf, hk]
  exact loopAligned_one w k 0

/-- **C15, violated** for words narrower than 64 bits: every lag that is not a multiple of 64 executes an
undefined shift, since `value_size` is that of `bitset<>` and not of `bitset<T>`. -/
theorem C15_narrow_violation (hW : W ≤ 32) (b : Bitset W) (pos : Nat) (hs : pos % 64 ≠ 0)
    (hin : pos / 64 + 1 < b.bits.length) : Acf.acf b pos = .error .badShift := by
  obtain ⟨k, hk⟩ : ∃ k, Acf.midArray b = k + 1 := ⟨Acf.midArray b - 1, by rw [Acf.midArray]; omega⟩
  simp only [Acf.acf, hk]
  rw [if_neg hs, Acf.loopShifted, readAt_ok (by omega : pos / 64 < _), readAt_ok hin]
  simp only [bind, Except.bind]
  rw [if_pos (by omega)]

/-! ## Concrete cases meeting the hypotheses -/

/-- The bitset `0110…0 | 1…1` of two words: a case for C12, C13, C15. -/
example : ∃ b : Bitset 64, Bits b (bitAt b.bits) ∧ b.size = 64 * 2 ∧ b.size < 2 ^ 64 ∧
    Acf.acf b 1 = .ok 3 := by
  refine ⟨⟨[6, BitVec.allOnes 64]⟩, bits_exists (by omega) _, rfl, by decide, by decide⟩
example : ((⟨[6]⟩ : Bitset 64).set 3 true) = .ok ⟨[14]⟩ := by decide
example : ((⟨[6]⟩ : Bitset 64).set 31 true) = .ok ⟨[0xFFFFFFFF80000006]⟩ := by decide
example : ((⟨[0x80, 6]⟩ : Bitset 8).set 15 true) = .ok ⟨[0x80, 0x86]⟩ := by decide
end Verif
