import Verif.Model.Bitset
/-! Helper lemmas: a bitset as a function from bit positions to Booleans. -/
namespace Verif.Bitset
variable {W : Nat}

/-- Bit `k` of a list of words. -/
def bitAt (l : List (BitVec W)) (k : Nat) : Bool := (l[k / W]?.map (·.getLsbD (k % W))).getD false

theorem bitAt_eq (l : List (BitVec W)) (k : Nat) (h : k / W < l.length) :
    bitAt l k = l[k / W].getLsbD (k % W) := by
  simp [bitAt, h]

theorem div_lt_of_lt_size {b : Bitset W} {k : Nat} (hk : k < b.size) : k / W < b.bits.length := by
  rw [size] at hk
  exact Nat.div_lt_of_lt_mul (by rw [Nat.mul_comm]; exact hk)

theorem and_twoPow_ne_zero (w : BitVec W) (j : Nat) (hj : j < W) :
    ((w &&& BitVec.twoPow W j) != 0) = w.getLsbD j := by
  rw [BitVec.and_twoPow]
  split
  · rename_i h
    rw [h]
    have : BitVec.twoPow W j ≠ 0 := by
      intro e
      have := congrArg (fun x => x.getLsbD j) e
      simp [BitVec.getLsbD_twoPow, hj] at this
    simpa using this
  · rename_i h; simp at h; simp [h]

theorem get_ok (hW : 0 < W) (b : Bitset W) (k : Nat) (hk : k < b.size) :
    b.get k = .ok (bitAt b.bits k) := by
  have h := div_lt_of_lt_size hk
  rw [get, if_neg (by omega), readAt_ok h]
  simp only [bind, Except.bind, pure, Except.pure]
  rw [and_twoPow_ne_zero _ _ (Nat.mod_lt _ hW), bitAt_eq _ _ h]

/-- Writing one word. -/
theorem bitAt_set (hW : 0 < W) (l : List (BitVec W)) (p : Nat) (w : BitVec W) (hp : p < l.length) (k : Nat) :
    bitAt (l.set p w) k = if k / W = p then w.getLsbD (k % W) else bitAt l k := by
  rw [bitAt, List.getElem?_set]
  by_cases h : p = k / W
  · rw [if_pos h, if_pos h.symm, if_pos hp]; rfl
  · rw [if_neg h, if_neg (fun e => h e.symm)]; rfl

theorem maskWord_ok (hW : 0 < W) (l : List (BitVec W)) (p : Nat) (m : BitVec W) (val : Bool) (hp : p < l.length) :
    ∃ l', maskWord l p m val = .ok l' ∧ l'.length = l.length ∧
      ∀ k, bitAt l' k = if k / W = p ∧ m.getLsbD (k % W) then val else bitAt l k := by
  refine ⟨_, by rw [maskWord, readAt_ok hp]; simp only [bind, Except.bind]; rw [writeAt_ok hp], by simp, ?_⟩
  intro k
  have hlt := Nat.mod_lt k hW
  rw [bitAt_set hW _ _ _ hp]
  by_cases h : k / W = p
  · subst h
    rw [if_pos rfl, bitAt_eq _ _ hp]
    by_cases hm : m.getLsbD (k % W)
    · cases val <;> simp [hm]
    · cases val <;> simp [hm]
      · intro; exact hlt
  · simp [h]

theorem fillWords_ok (hW : 0 < W) (l : List (BitVec W)) (p n : Nat) (val : Bool)
    (h : p * W + n ≤ l.length * W) :
    ∃ l', fillWords l p n (if val then BitVec.allOnes W else 0) = .ok (l', p + n / W, n % W) ∧
      l'.length = l.length ∧
      ∀ k, bitAt l' k = if p * W ≤ k ∧ k < (p + n / W) * W then val else bitAt l k := by
  induction n using Nat.strongRecOn generalizing l p with
  | _ n ih =>
    rw [fillWords]
    by_cases hc : W ≤ n
    · have hp : p < l.length := by
        rcases Nat.lt_or_ge p l.length with h1 | h1
        · exact h1
        · have := Nat.mul_le_mul_right W h1; omega
      rw [if_pos ⟨hW, hc⟩, writeAt_ok hp]
      obtain ⟨l', e, hl, hb⟩ := ih (n - W) (by omega)
        (l.set p (if val then BitVec.allOnes W else 0)) (p + 1)
        (by rw [List.length_set, Nat.add_mul]; omega)
      have hdiv : n / W = (n - W) / W + 1 := by
        conv => lhs; rw [show n = (n - W) + W by omega]
        exact Nat.add_div_right _ hW
      have hmod : n % W = (n - W) % W := by
        conv => lhs; rw [show n = (n - W) + W by omega]
        exact Nat.add_mod_right _ _
      refine ⟨l', ?_, by rw [hl, List.length_set], ?_⟩
      · simp only [bind, Except.bind, e, hdiv, hmod]
        congr 2; congr 1; omega
      · intro k
        rw [hb, bitAt_set hW _ _ _ hp]
        have hkey : k / W = p ↔ (p * W ≤ k ∧ k < (p + 1) * W) := by
          rw [Nat.div_eq_iff hW, Nat.add_mul]
          constructor <;> intro h <;> omega
        have hval : (if val then BitVec.allOnes W else 0).getLsbD (k % W) = val := by
          cases val <;> simp [Nat.mod_lt k hW]
        have e3 : (p + n / W) * W = (p + 1 + (n - W) / W) * W := by congr 1; omega
        have e4 : (p + 1) * W ≤ (p + 1 + (n - W) / W) * W := Nat.mul_le_mul_right W (Nat.le_add_right _ _)
        have e5 : p * W ≤ (p + 1) * W := Nat.mul_le_mul_right W (by omega)
        rw [hval, e3]
        by_cases h1 : k / W = p
        · have := hkey.1 h1
          rw [if_pos h1, if_pos (show p * W ≤ k ∧ k < (p + 1 + (n - W) / W) * W by omega)]
          split <;> rfl
        · rw [if_neg h1]
          have h2 : ¬ (p * W ≤ k ∧ k < (p + 1) * W) := fun h => h1 (hkey.2 h)
          by_cases h3 : (p + 1) * W ≤ k ∧ k < (p + 1 + (n - W) / W) * W
          · rw [if_pos h3, if_pos ⟨by omega, h3.2⟩]
          · rw [if_neg h3, if_neg (by omega)]
    · rw [if_neg (by omega)]
      refine ⟨l, by rw [Nat.div_eq_of_lt (by omega), Nat.mod_eq_of_lt (by omega)]; rfl, rfl, ?_⟩
      intro k
      rw [Nat.div_eq_of_lt (by omega), Nat.add_zero, if_neg (by omega)]

theorem getLsbD_lowMask (n j : Nat) (hj : j < W) (hn : n < W) :
    (BitVec.twoPow W n - 1).getLsbD j = decide (j < n) := by
  have h2 : 2 ^ n < 2 ^ W := Nat.pow_lt_pow_right (by omega) hn
  have h1 : 0 < 2 ^ n := Nat.two_pow_pos n
  have : (BitVec.twoPow W n - 1).toNat = 2 ^ n - 1 := by
    have h4 : (1 : BitVec W).toNat = 1 := by
      show 1 % 2 ^ W = 1
      have : 0 < n ∨ n = 0 := by omega
      exact Nat.mod_eq_of_lt (by omega)
    rw [BitVec.toNat_sub, h4, BitVec.toNat_twoPow, Nat.mod_eq_of_lt h2]
    rw [show 2 ^ W - 1 + 2 ^ n = (2 ^ n - 1) + 2 ^ W by omega, Nat.add_mod_right,
      Nat.mod_eq_of_lt (by omega)]
  rw [← BitVec.testBit_toNat, this, Nat.testBit_two_pow_sub_one]

theorem setTail_ok (hW : 0 < W) (l : List (BitVec W)) (p n : Nat) (val : Bool)
    (h : p * W + n ≤ l.length * W) :
    ∃ b', setTail l p n val = .ok b' ∧ b'.bits.length = l.length ∧
      ∀ k, bitAt b'.bits k = if p * W ≤ k ∧ k < p * W + n then val else bitAt l k := by
  obtain ⟨l1, e1, hl1, hb1⟩ := fillWords_ok hW l p n val h
  have hdm := Nat.div_add_mod n W
  have hml := Nat.mod_lt n hW
  have hpn : (p + n / W) * W = p * W + W * (n / W) := by rw [Nat.add_mul, Nat.mul_comm (n / W)]
  rw [setTail, e1]
  simp only [bind, Except.bind]
  by_cases hz : n % W = 0
  · rw [if_neg (by omega)]
    refine ⟨_, rfl, hl1, ?_⟩
    intro k
    show bitAt l1 k = _
    rw [hb1, hpn]
    congr 1
    apply propext; constructor <;> intro h <;> omega
  · rw [if_pos hz]
    have hp : p + n / W < l1.length := by
      rw [hl1]
      rcases Nat.lt_or_ge (p + n / W) l.length with h1 | h1
      · exact h1
      · have := Nat.mul_le_mul_right W h1; omega
    obtain ⟨l2, e2, hl2, hb2⟩ := maskWord_ok hW l1 (p + n / W) (BitVec.twoPow W (n % W % W) - 1) val hp
    rw [e2]
    refine ⟨_, rfl, by rw [← hl1, ← hl2], ?_⟩
    intro k
    show bitAt l2 k = _
    rw [hb2, hb1, getLsbD_lowMask _ _ (Nat.mod_lt k hW) (Nat.mod_lt _ hW), Nat.mod_mod]
    have hkd := Nat.div_add_mod k W
    have hkm := Nat.mod_lt k hW
    by_cases hk : k / W = p + n / W
    · have : k = p * W + W * (n / W) + k % W := by
        rw [← hpn, ← hk, Nat.mul_comm]; omega
      by_cases hc : k % W < n % W
      · rw [if_pos ⟨hk, by simpa using hc⟩, if_pos (by omega)]
      · rw [if_neg (by simp [hc]), if_neg (by omega), if_neg (by omega)]
    · rw [if_neg (by simp [hk])]
      have h2 : ¬ ((p + n / W) * W ≤ k ∧ k < (p + n / W) * W + W) := by
        intro h
        apply hk
        rw [Nat.div_eq_iff hW]; omega
      congr 1
      apply propext; constructor <;> intro h <;> omega

theorem getLsbD_highMask (m j : Nat) (hj : j < W) (hm : m ≤ W) :
    (~~~(BitVec.allOnes W >>> m)).getLsbD j = decide (W - m ≤ j) := by
  simp only [BitVec.getLsbD_not, hj, BitVec.getLsbD_ushiftRight, BitVec.getLsbD_allOnes,
    decide_true, Bool.true_and]
  by_cases h : m + j < W
  · simp [h]; omega
  · simp [h]; omega

theorem getLsbD_shrOnes (m j : Nat) :
    (BitVec.allOnes W >>> m).getLsbD j = decide (m + j < W) := by
  simp [BitVec.getLsbD_ushiftRight]

theorem setRange_ok (hW : 0 < W) (b : Bitset W) (i n : Nat) (val : Bool) (hi : i ≤ b.size)
    (hb : b.size < 2 ^ 64) (hn : i + n < 2 ^ 64) :
    ∃ b', b.setRange i n val = .ok b' ∧ b'.bits.length = b.bits.length ∧
      ∀ k, k < b.size → bitAt b'.bits k = if i ≤ k ∧ k < i + n then val else bitAt b.bits k := by
  rw [setRange, if_neg (by omega), Nat.mod_eq_of_lt hn]
  obtain ⟨n', hn'⟩ : ∃ n', n' = if i + n > b.size then b.size - i else n := ⟨_, rfl⟩
  have hn1 : i + n' ≤ b.size := by rw [hn']; split <;> omega
  have hn2 : ∀ k, k < b.size → ((i ≤ k ∧ k < i + n) ↔ (i ≤ k ∧ k < i + n')) := by
    intro k hk; rw [hn']; split <;> constructor <;> intro h <;> omega
  simp only [← hn']
  suffices hs : ∃ b', (if i % W ≠ 0 then do
      let mod := W - i % W
      let mask := ~~~(BitVec.allOnes W >>> mod)
      let mask := if n' < mod then mask &&& (BitVec.allOnes W >>> (mod - n')) else mask
      let bits ← maskWord b.bits (i / W) mask val
      if n' < mod then return { bits := bits }
      else setTail bits (i / W + 1) (n' - mod) val
    else setTail b.bits (i / W) n' val) = Except.ok b' ∧ b'.bits.length = b.bits.length ∧
      ∀ k, bitAt b'.bits k = if i ≤ k ∧ k < i + n' then val else bitAt b.bits k by
    obtain ⟨b', e, hl, hbb⟩ := hs
    refine ⟨b', e, hl, fun k hk => ?_⟩
    rw [hbb]
    congr 1
    exact propext (hn2 k hk).symm
  have hsz : b.size = b.bits.length * W := rfl
  have hdm := Nat.div_add_mod i W
  have hml := Nat.mod_lt i hW
  rw [Nat.mul_comm] at hdm
  by_cases hmod : i % W = 0
  · rw [if_neg (by omega)]
    obtain ⟨b', e, hl, hbb⟩ := setTail_ok hW b.bits (i / W) n' val (by omega)
    refine ⟨b', e, hl, fun k => ?_⟩
    rw [hbb, show i / W * W = i by omega]
  · rw [if_pos hmod]
    have hp : i / W < b.bits.length := by
      rcases Nat.lt_or_ge (i / W) b.bits.length with h1 | h1
      · exact h1
      · have := Nat.mul_le_mul_right W h1; omega
    obtain ⟨l1, e1, hl1, hb1⟩ := maskWord_ok hW b.bits (i / W)
      (if n' < W - i % W then ~~~(BitVec.allOnes W >>> (W - i % W)) &&&
        (BitVec.allOnes W >>> (W - i % W - n')) else ~~~(BitVec.allOnes W >>> (W - i % W))) val hp
    simp only [bind, Except.bind, e1]
    have hkd : ∀ k, k / W = i / W ↔ (i / W * W ≤ k ∧ k < i / W * W + W) := by
      intro k; rw [Nat.div_eq_iff hW]; constructor <;> intro h <;> omega
    have hkm : ∀ k, k / W = i / W → k % W = k - i / W * W := by
      intro k h
      have := Nat.div_add_mod k W
      rw [h, Nat.mul_comm] at this; omega
    by_cases hlt : n' < W - i % W
    · rw [if_pos hlt]
      refine ⟨_, rfl, hl1, fun k => ?_⟩
      show bitAt l1 k = _
      rw [hb1, if_pos hlt]
      by_cases hk : k / W = i / W
      · have h1 := (hkd k).1 hk
        have h2 := hkm k hk
        have h3 := Nat.mod_lt k hW
        rw [BitVec.getLsbD_and, getLsbD_highMask _ _ h3 (by omega), getLsbD_shrOnes]
        congr 1
        simp only [hk, true_and, Bool.and_eq_true, decide_eq_true_eq]
        apply propext; constructor <;> intro h <;> omega
      · rw [if_neg (by simp [hk]), if_neg]
        intro h; exact hk ((hkd k).2 (by omega))
    · rw [if_neg hlt]
      obtain ⟨b', e, hl, hbb⟩ := setTail_ok hW l1 (i / W + 1) (n' - (W - i % W)) val
        (by rw [hl1, Nat.add_mul]; omega)
      refine ⟨b', e, by rw [hl, hl1], fun k => ?_⟩
      rw [hbb, hb1, if_neg hlt]
      have e5 : (i / W + 1) * W = i / W * W + W := by rw [Nat.add_mul]; omega
      rw [e5]
      by_cases hk : k / W = i / W
      · have h1 := (hkd k).1 hk
        have h2 := hkm k hk
        have h3 := Nat.mod_lt k hW
        rw [getLsbD_highMask _ _ h3 (by omega), if_neg (by omega)]
        congr 1
        simp only [hk, true_and, decide_eq_true_eq]
        apply propext; constructor <;> intro h <;> omega
      · have h4 : ¬ (k / W = i / W ∧ (~~~(BitVec.allOnes W >>> (W - i % W))).getLsbD (k % W) = true) := by
          simp [hk]
        rw [if_neg h4]
        have h5 : ¬ (i / W * W ≤ k ∧ k < i / W * W + W) := fun h => hk ((hkd k).2 h)
        congr 1
        apply propext; constructor <;> intro h <;> omega

end Verif.Bitset
