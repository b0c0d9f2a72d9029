import Verif.Model.Ring
/-! Helper lemmas about the ring buffer: the storage, read through position and mask, is a list. -/
namespace Verif

theorem smallestPow2From_pow (n m : Nat) (h : ∃ k, m = 2 ^ k) : ∃ k, smallestPow2From n m = 2 ^ k := by
  fun_induction smallestPow2From n m with
  | case1 m hm ih => 
    obtain ⟨k, rfl⟩ := h
    exact ih ⟨k+1, by rw [Nat.pow_succ]; omega⟩
  | case2 m hm => exact h

theorem smallestPow2From_ge (n m : Nat) (h : 0 < m) : n ≤ smallestPow2From n m := by
  fun_induction smallestPow2From n m with
  | case1 m hm ih => exact ih (by omega)
  | case2 m hm => omega

theorem smallestPow2From_least (n j k : Nat) (hn : n ≤ 2 ^ j) (hk : k ≤ j) :
    smallestPow2From n (2 ^ k) ≤ 2 ^ j := by
  induction hd : j - k generalizing k with
  | zero =>
    have : k = j := by omega
    subst this
    rw [smallestPow2From, dif_neg (by omega)]; exact Nat.le_refl _
  | succ d ih =>
    rw [smallestPow2From]
    split
    · have := ih (k+1) (by omega) (by omega)
      rwa [Nat.pow_succ, Nat.mul_comm] at this
    · exact Nat.pow_le_pow_right (by omega) hk

theorem smallestPow2_pow (n : Nat) : ∃ k, smallestPow2 n = 2 ^ k :=
  smallestPow2From_pow n 1 ⟨0, rfl⟩

theorem smallestPow2_ge (n : Nat) : n ≤ smallestPow2 n := smallestPow2From_ge n 1 (by omega)

theorem smallestPow2_least (n j : Nat) (h : n ≤ 2 ^ j) : smallestPow2 n ≤ 2 ^ j := by
  exact smallestPow2From_least n j 0 h (by omega)

theorem smallestPow2_pos (n : Nat) : 0 < smallestPow2 n := by
  obtain ⟨k, h⟩ := smallestPow2_pow n
  rw [h]; exact Nat.two_pow_pos k

theorem smallestPow2_of_pow (k : Nat) : smallestPow2 (2 ^ k) = 2 ^ k :=
  Nat.le_antisymm (smallestPow2_least _ k (Nat.le_refl _)) (smallestPow2_ge _)

namespace RingBuf
variable {α : Type _}

/-- Well-formed ring buffers: what the constructors establish. -/
structure WF (r : RingBuf α) : Prop where
  pow : ∃ k, k < 64 ∧ r.data.length = 2 ^ k
  mask : r.mask.toNat = r.data.length - 1

theorem WF.pos {r : RingBuf α} (h : r.WF) : 0 < r.data.length := by
  obtain ⟨k, _, hk⟩ := h.pow
  rw [hk]; exact Nat.two_pow_pos k

/-- Masking is reduction modulo the capacity. -/
theorem and_mask {r : RingBuf α} (h : r.WF) (x : BitVec 64) :
    (x &&& r.mask).toNat = x.toNat % r.data.length := by
  obtain ⟨k, hk, hl⟩ := h.pow
  rw [BitVec.toNat_and, h.mask, hl, Nat.and_two_pow_sub_one_eq_mod]

theorem add_mod {r : RingBuf α} (h : r.WF) (x y : BitVec 64) :
    (x + y).toNat % r.data.length = (x.toNat + y.toNat) % r.data.length := by
  obtain ⟨k, hk, hl⟩ := h.pow
  rw [BitVec.toNat_add, hl]
  exact Nat.mod_mod_of_dvd _ (Nat.pow_dvd_pow 2 (by omega))

/-- The abstract contents: entry `k` of the list is the cell that `operator[](k)` addresses. -/
def view (r : RingBuf α) : List α :=
  List.ofFn (n := r.data.length) fun k =>
    r.data[(r.pos.toNat + k) % r.data.length]'(Nat.mod_lt _ (by have := k.2; omega))

@[simp] theorem view_length (r : RingBuf α) : r.view.length = r.data.length := by simp [view]

theorem view_getElem (r : RingBuf α) (k : Nat) (h : k < r.view.length) :
    r.view[k] = r.data[(r.pos.toNat + k) % r.data.length]'(Nat.mod_lt _ (by simp at h; omega)) := by
  simp [view]

theorem get_ok {r : RingBuf α} (h : r.WF) (i : BitVec 64) :
    r.get i = .ok (r.view[i.toNat % r.data.length]'(by simpa using Nat.mod_lt _ h.pos)) := by
  have hp := h.pos
  rw [get, readAt_ok (by rw [and_mask h]; exact Nat.mod_lt _ hp), view_getElem]
  congr 2
  rw [and_mask h, add_mod h, Nat.add_mod_mod]

theorem get_ok_nat {r : RingBuf α} (h : r.WF) (k : Nat) (hk : k < r.data.length) :
    r.get (BitVec.ofNat 64 k) = .ok (r.view[k]'(by simpa using hk)) := by
  rw [get_ok h]
  congr 2
  obtain ⟨j, hj, hl⟩ := h.pow
  have : 2 ^ j < 2 ^ 64 := Nat.pow_lt_pow_right (by omega) hj
  rw [BitVec.toNat_ofNat, Nat.mod_eq_of_lt (a := k) (by omega), Nat.mod_eq_of_lt hk]

theorem mod_inj_offset {n p a b : Nat} (ha : a < n) (hb : b < n) (h : (p + a) % n = (p + b) % n) :
    a = b := by
  have h1 := Nat.div_add_mod (p + a) n
  have h2 := Nat.div_add_mod (p + b) n
  rw [h] at h1
  rcases Nat.lt_trichotomy ((p + a) / n) ((p + b) / n) with hlt | heq | hgt
  · have := Nat.mul_le_mul_left n (Nat.succ_le_of_lt hlt)
    rw [Nat.mul_succ] at this; omega
  · rw [heq] at h1; omega
  · have := Nat.mul_le_mul_left n (Nat.succ_le_of_lt hgt)
    rw [Nat.mul_succ] at this; omega

theorem push_ok {r : RingBuf α} (h : r.WF) (v : α) :
    ∃ r', r.push v = .ok r' ∧ r'.WF ∧ r'.data.length = r.data.length ∧
      r'.view = v :: r.view.dropLast := by
  have hp := h.pos
  have hlt : ((r.pos - 1) &&& r.mask).toNat < r.data.length := by
    rw [and_mask h]; exact Nat.mod_lt _ hp
  refine ⟨_, by rw [push, writeAt_ok hlt]; rfl, ⟨?_, ?_⟩, ?_, ?_⟩
  · simpa using h.pow
  · simpa using h.mask
  · simp
  apply List.ext_getElem
  · simp; omega
  intro k h1 h2
  have hk : k < r.data.length := by simpa using h1
  have hpos : (r.pos - 1).toNat % r.data.length = (r.pos.toNat + (r.data.length - 1)) % r.data.length := by
    obtain ⟨j, hj, hl⟩ := h.pow
    have e1 : r.pos.toNat % r.data.length = ((r.pos - 1) + 1#64).toNat % r.data.length := by
      congr 2
      exact (BitVec.sub_add_cancel r.pos 1#64).symm
    have e2 := add_mod h (r.pos - 1) 1#64
    rw [e2] at e1
    have e3 : (1#64 : BitVec 64).toNat = 1 := rfl
    rw [e3] at e1
    have : (r.pos.toNat + (r.data.length - 1)) % r.data.length =
        ((r.pos.toNat % r.data.length) + (r.data.length - 1)) % r.data.length := by
      rw [Nat.mod_add_mod]
    rw [this, e1, Nat.mod_add_mod]
    have : (r.pos - 1).toNat + 1 + (r.data.length - 1) = (r.pos - 1).toNat + r.data.length := by omega
    rw [this, Nat.add_mod_right]
  rw [view_getElem]
  simp only [List.length_set, and_mask h]
  rw [List.getElem_set]
  cases k with
  | zero => simp
  | succ k =>
    rw [if_neg]
    · simp only [List.getElem_cons_succ, List.getElem_dropLast]
      rw [view_getElem]
      congr 1
      rw [Nat.mod_add_mod, Nat.add_comm _ (k+1), ← Nat.add_mod_mod, hpos, Nat.add_mod_mod]
      have : k + 1 + (r.pos.toNat + (r.data.length - 1)) = (r.pos.toNat + k) + r.data.length := by omega
      rw [this, Nat.add_mod_right]
    · intro e
      have := mod_inj_offset (n := r.data.length) (p := (r.pos-1).toNat) (a := 0) (b := k+1) hp hk
        (by rw [Nat.add_zero, e, Nat.mod_add_mod])
      omega

theorem popFront_wf {r : RingBuf α} (h : r.WF) : r.popFront.WF := ⟨h.pow, h.mask⟩

theorem popFront_view {r : RingBuf α} (h : r.WF) :
    r.popFront.view = r.view.tail ++ r.view.take 1 := by
  have hp := h.pos
  apply List.ext_getElem
  · simp [popFront]; omega
  intro k h1 h2
  have hk : k < r.data.length := by simpa [popFront] using h1
  rw [view_getElem]
  simp only [popFront]
  have e : ((r.pos + 1#64).toNat + k) % r.data.length = (r.pos.toNat + (k + 1)) % r.data.length := by
    rw [← Nat.mod_add_mod, add_mod h, Nat.mod_add_mod]
    congr 1
    show r.pos.toNat + 1 + k = _
    omega
  by_cases hk2 : k < r.view.tail.length
  · rw [List.getElem_append_left hk2, List.getElem_tail, view_getElem]
    congr 1
  · rw [List.getElem_append_right (by omega)]
    have : k = r.data.length - 1 := by simp at hk2; omega
    rw [List.getElem_take, view_getElem]
    congr 1
    simp only [List.length_tail, view_length]
    refine e.trans ?_
    have : r.pos.toNat + (k + 1) = r.pos.toNat + (k - (r.data.length - 1)) + r.data.length := by omega
    rw [this, Nat.add_mod_right]

theorem assign_ok {r : RingBuf α} (h : r.WF) (i : BitVec 64) (v : α) :
    ∃ r', r.assign i v = .ok r' ∧ r'.WF ∧ r'.data.length = r.data.length ∧
      r'.view = r.view.set (i.toNat % r.data.length) v := by
  have hp := h.pos
  have hlt : ((r.pos + i) &&& r.mask).toNat < r.data.length := by
    rw [and_mask h]; exact Nat.mod_lt _ hp
  refine ⟨_, by rw [assign, writeAt_ok hlt]; rfl, ⟨?_, ?_⟩, ?_, ?_⟩
  · simpa using h.pow
  · simpa using h.mask
  · simp
  apply List.ext_getElem
  · simp
  intro k h1 h2
  have hk : k < r.data.length := by simpa using h1
  rw [view_getElem]
  simp only [List.length_set, and_mask h, add_mod h]
  rw [List.getElem_set, List.getElem_set, view_getElem]
  have hiff : (r.pos.toNat + i.toNat) % r.data.length = (r.pos.toNat + k) % r.data.length ↔
      i.toNat % r.data.length = k := by
    constructor
    · intro e
      rw [← Nat.add_mod_mod] at e
      exact mod_inj_offset (Nat.mod_lt _ hp) hk e
    · intro e; rw [← e, Nat.add_mod_mod]
  by_cases hc : i.toNat % r.data.length = k
  · rw [if_pos (hiff.2 hc), if_pos hc]
  · rw [if_neg (fun x => hc (hiff.1 x)), if_neg hc]

theorem fill_wf {r : RingBuf α} (h : r.WF) (v : α) : (r.fill v).WF :=
  ⟨by simpa [fill] using h.pow, by simpa [fill] using h.mask⟩

theorem fill_view (r : RingBuf α) (v : α) : (r.fill v).view = List.replicate r.data.length v := by
  apply List.ext_getElem
  · simp [fill]
  intro k h1 h2
  rw [view_getElem]; simp [fill]

theorem mk'_wf (zero : α) (size : Nat) (h : size ≤ 2 ^ 63) : (mk' zero size).WF := by
  obtain ⟨k, hk⟩ := smallestPow2_pow size
  have hle := smallestPow2_least size 63 h
  have hk63 : k ≤ 63 := by
    rw [hk] at hle
    exact (Nat.pow_le_pow_iff_right (by omega)).1 hle
  refine ⟨⟨k, by omega, by simp [mk', hk]⟩, ?_⟩
  have hpos := smallestPow2_pos size
  simp only [mk', List.length_replicate]
  rw [BitVec.toNat_sub, BitVec.toNat_ofNat, Nat.mod_eq_of_lt (a := smallestPow2 size) (by omega)]
  show (2^64 - 1 + smallestPow2 size) % 2^64 = _
  omega

theorem mk'_view (zero : α) (size : Nat) :
    (mk' zero size).view = List.replicate (smallestPow2 size) zero := by
  apply List.ext_getElem
  · simp [mk']
  intro k h1 h2
  rw [view_getElem]; simp [mk']

end RingBuf
end Verif
