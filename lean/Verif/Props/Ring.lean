import Verif.Proof.RingHist
/-!
# C01–C03: the ring buffer

Specification vocabulary: a history of values is a list, oldest first; `ago vs k` is the value that was
pushed `k` pushes before the latest one (defined in `Verif.Proof.RingHist`).
-/
namespace Verif
open RingBuf
variable {α : Type _}

/-- Specification: `c` is the least power of two not below `n`. -/
def IsLeastPow2 (n c : Nat) : Prop := (∃ k, c = 2 ^ k) ∧ n ≤ c ∧ ∀ k, n ≤ 2 ^ k → c ≤ 2 ^ k

/-- Specification: an abstract circular sequence of cells, newest first. -/
def ringSpecStep (zero : α) (l : List α) : RingBuf.Op α → List α
  | .push v => v :: l.dropLast                       -- the oldest cell is recycled as the newest
  | .popFront => l.tail ++ l.take 1                  -- the newest cell becomes the oldest
  | .assign i v => l.set (i.toNat % l.length) v      -- indices are taken modulo the capacity
  | .fill v => List.replicate l.length v
  | .clear => List.replicate l.length zero

namespace RingBuf

theorem ringSpecStep_length (zero : α) (l : List α) (hl : 0 < l.length) (op : Op α) :
    (ringSpecStep zero l op).length = l.length := by
  cases op <;> simp [ringSpecStep] <;> omega

theorem step_ok {r : RingBuf α} (h : r.WF) (zero : α) (op : Op α) :
    ∃ r', r.step zero op = .ok r' ∧ r'.WF ∧ r'.data.length = r.data.length ∧
      r'.view = ringSpecStep zero r.view op := by
  cases op with
  | push v => exact push_ok h v
  | popFront => exact ⟨_, rfl, popFront_wf h, rfl, popFront_view h⟩
  | assign i v => simpa [ringSpecStep, step] using assign_ok h i v
  | fill v => exact ⟨_, rfl, fill_wf h v, by simp [fill], by simp [fill_view, ringSpecStep]⟩
  | clear => exact ⟨_, rfl, fill_wf h zero, by simp [clear], by
      show (r.fill zero).view = _
      simp [fill_view, ringSpecStep]⟩

theorem run_ok {r : RingBuf α} (h : r.WF) (zero : α) (ops : List (Op α)) :
    ∃ r', r.run zero ops = .ok r' ∧ r'.WF ∧ r'.data.length = r.data.length ∧
      r'.view = ops.foldl (ringSpecStep zero) r.view := by
  induction ops generalizing r with
  | nil => exact ⟨r, rfl, h, rfl, rfl⟩
  | cons op ops ih =>
    obtain ⟨r1, e1, w1, l1, v1⟩ := step_ok h zero op
    obtain ⟨r2, e2, w2, l2, v2⟩ := ih w1
    refine ⟨r2, ?_, w2, by omega, by rw [v2, v1]; rfl⟩
    rw [run, e1]; exact e2

theorem foldl_push (zero : α) (l : List α) (hl : 0 < l.length) (vs : List α) :
    (vs.map Op.push).foldl (ringSpecStep zero) l = (vs.reverse ++ l).take l.length := by
  induction h : vs.reverse generalizing vs with
  | nil =>
    have : vs = [] := by simpa using h
    subst this; simp
  | cons v ws ih =>
    have hv : vs = ws.reverse ++ [v] := by
      have := congrArg List.reverse h
      simpa using this
    subst hv
    rw [List.map_append, List.foldl_append, ih ws.reverse (by simp)]
    simp only [List.map_cons, List.map_nil, List.foldl_cons, List.foldl_nil, ringSpecStep,
      List.dropLast_eq_take, List.take_take, List.length_take, List.length_append]
    obtain ⟨n, hn⟩ : ∃ n, l.length = n + 1 := ⟨l.length - 1, by omega⟩
    rw [hn, List.cons_append, List.take_succ_cons]
    congr 2
    omega

end RingBuf

theorem IsLeastPow2.eq {n c : Nat} (h : IsLeastPow2 n c) : c = smallestPow2 n := by
  obtain ⟨⟨k, rfl⟩, h2, h3⟩ := h
  obtain ⟨j, hj⟩ := smallestPow2_pow n
  exact Nat.le_antisymm (hj ▸ h3 j (hj ▸ smallestPow2_ge n)) (smallestPow2_least n k h2)

/-- **C02.** The capacity of a ring buffer is the least power of two not below the requested size,
after any history of operations. -/
theorem C02_capacity (zero : α) (size : Nat) (hs : size ≤ 2 ^ 63) (ops : List (RingBuf.Op α)) :
    ∃ r, (RingBuf.mk' zero size).run zero ops = .ok r ∧
      IsLeastPow2 size r.size := by
  obtain ⟨r, e, w, l, v⟩ := run_ok (mk'_wf zero size hs) zero ops
  have hsz : r.size = smallestPow2 size := by rw [RingBuf.size, l]; simp [RingBuf.mk']
  refine ⟨r, e, ?_⟩
  rw [hsz]
  exact ⟨smallestPow2_pow size, smallestPow2_ge size, fun k hk => smallestPow2_least size k hk⟩

/-- **C03.** Under every sequence of operations (with arbitrary 64-bit indices) no storage access is ever
out of bounds, and the buffer reads, at *every* 64-bit index, like the abstract circular sequence. -/
theorem C03_refines_circular_sequence (zero : α) (size : Nat) (hs : size ≤ 2 ^ 63)
    (ops : List (RingBuf.Op α)) (cap : Nat) (hcap : IsLeastPow2 size cap) :
    let spec := ops.foldl (ringSpecStep zero) (List.replicate cap zero)
    ∃ r, (RingBuf.mk' zero size).run zero ops = .ok r ∧ r.size = spec.length ∧ 0 < spec.length ∧
      ∀ i : BitVec 64, ∃ x, spec[i.toNat % spec.length]? = some x ∧ r.get i = .ok x := by
  obtain ⟨r, e, w, l, v⟩ := run_ok (mk'_wf zero size hs) zero ops
  rw [mk'_view, ← hcap.eq] at v
  simp only [← v, view_length]
  refine ⟨r, e, rfl, w.pos, fun i => ⟨_, ?_, get_ok w i⟩⟩
  exact List.getElem?_eq_getElem _

/-- **C01.** After filling with `w` and pushing any history `vs`, index `k` (below the capacity) reads the
value pushed `k` pushes before the latest, or the fill value if there were not that many pushes.
`front()` is the latest and `back()` the oldest retained value. -/
theorem C01_recency (zero w : α) (size : Nat) (hs : size ≤ 2 ^ 63) (vs : List α) :
    ∃ r, (RingBuf.mk' zero size).run zero (.fill w :: vs.map .push) = .ok r ∧
      (∀ k, k < r.size → r.get (BitVec.ofNat 64 k) = .ok ((ago vs k).getD w)) ∧
      r.front = .ok ((ago vs 0).getD w) ∧
      r.back = .ok ((ago vs (r.size - 1)).getD w) := by
  obtain ⟨r, e, wf, l, v⟩ := run_ok (mk'_wf zero size hs) zero (.fill w :: vs.map .push)
  have hp := smallestPow2_pos size
  rw [mk'_view] at v
  simp only [List.foldl_cons] at v
  rw [show ringSpecStep zero (List.replicate (smallestPow2 size) zero) (Op.fill w)
        = List.replicate (smallestPow2 size) w by simp [ringSpecStep]] at v
  rw [foldl_push zero _ (by simpa using hp)] at v
  have hl : r.data.length = smallestPow2 size := by rw [l]; simp [RingBuf.mk']
  have key : ∀ k, k < r.size → r.get (BitVec.ofNat 64 k) = .ok ((ago vs k).getD w) := by
    intro k hk
    rw [get_ok_nat wf k hk]
    congr 1
    have h1 : r.view[k]? = some (r.view[k]'(by simpa [RingBuf.size] using hk)) := List.getElem?_eq_getElem _
    have hk' : k < smallestPow2 size := by rw [RingBuf.size, hl] at hk; exact hk
    have h2 : r.view[k]? = some ((ago vs k).getD w) := by
      rw [v, List.getElem?_take, if_pos (by simpa using hk'), ago]
      by_cases hc : k < vs.reverse.length
      · rw [List.getElem?_append_left hc, List.getElem?_eq_getElem hc]; rfl
      · rw [List.getElem?_append_right (by omega), List.getElem?_eq_none (l := vs.reverse) (by omega),
          List.getElem?_replicate, if_pos (by omega)]; rfl
    rw [h1] at h2
    exact Option.some.inj h2
  refine ⟨r, e, key, key 0 wf.pos, ?_⟩
  have : BitVec.ofNat 64 r.size - 1 = BitVec.ofNat 64 (r.size - 1) := by
    have := wf.pos
    obtain ⟨j, hj, hjl⟩ := wf.pow
    have h2 : 2 ^ j < 2 ^ 64 := Nat.pow_lt_pow_right (by omega) hj
    have h3 : r.size < 2 ^ 64 := by rw [RingBuf.size]; omega
    have h4 : 0 < r.size := this
    apply BitVec.eq_of_toNat_eq
    rw [BitVec.toNat_sub, BitVec.toNat_ofNat, BitVec.toNat_ofNat]
    show (2^64 - 1 + _) % 2^64 = _
    omega
  rw [RingBuf.back, this]
  exact key _ (by have := wf.pos; show _ < r.data.length; rw [RingBuf.size]; omega)

/-- Non-vacuity: a concrete history through a buffer of requested size 3 (capacity 4), with wrap-around
and a `pop_front` between pushes. -/
example : (RingBuf.mk' (0 : Nat) 3).run 0
    ([.push 1, .push 2, .push 3, .push 4, .push 5, .popFront, .push 6]) =
    .ok { mask := 3#64, pos := 3#64, data := [4, 3, 2, 6] } ∧ ago [1, 2, 3, 4, 5, 6] 3 = some 3 := by
  decide +kernel

end Verif
