import Verif.Proof.Ring
/-! A ring buffer that has only been pushed to, described by the history of pushed values. -/
namespace Verif

/-- Specification: the `k`-th most recent element of a chronological history (`k = 0` is the latest). -/
def ago {α} (vs : List α) (k : Nat) : Option α := vs.reverse[k]?

theorem ago_zero_snoc {α} (vs : List α) (v : α) : ago (vs ++ [v]) 0 = some v := by simp [ago]
theorem ago_succ_snoc {α} (vs : List α) (v : α) (k : Nat) : ago (vs ++ [v]) (k+1) = ago vs k := by
  simp [ago]
theorem ago_eq {α} (vs : List α) (k : Nat) (h : k < vs.length) :
    ago vs k = some (vs[vs.length - 1 - k]'(by omega)) := by
  rw [ago, List.getElem?_reverse h, List.getElem?_eq_getElem]
theorem ago_none {α} (vs : List α) (k : Nat) (h : vs.length ≤ k) : ago vs k = none := by
  simp [ago, h]

namespace RingBuf
variable {α : Type _}

/-- `r` is a well-formed buffer of capacity `cap`, originally filled with `w`, to which the values `vs`
(oldest first) have been pushed. -/
structure Hist (w : α) (cap : Nat) (r : RingBuf α) (vs : List α) : Prop where
  wf : r.WF
  len : r.data.length = cap
  val : ∀ k, k < cap → r.view[k]? = some ((ago vs k).getD w)

theorem Hist.push {w : α} {cap : Nat} {r : RingBuf α} {vs : List α} (h : Hist w cap r vs) (v : α) :
    ∃ r', r.push v = .ok r' ∧ Hist w cap r' (vs ++ [v]) := by
  obtain ⟨r', e, wf, l, vw⟩ := push_ok h.wf v
  refine ⟨r', e, wf, by rw [l, h.len], ?_⟩
  intro k hk
  rw [vw]
  cases k with
  | zero => simp [ago_zero_snoc]
  | succ k =>
    rw [ago_succ_snoc, List.getElem?_cons_succ, ← h.val k (by omega)]
    rw [List.getElem?_dropLast, if_pos (by rw [view_length, h.len]; omega)]

theorem Hist.get {w : α} {cap : Nat} {r : RingBuf α} {vs : List α} (h : Hist w cap r vs) (k : Nat)
    (hk : k < cap) : r.get (BitVec.ofNat 64 k) = .ok ((ago vs k).getD w) := by
  rw [get_ok_nat h.wf k (h.len ▸ hk)]
  have := h.val k hk
  rw [List.getElem?_eq_getElem (by rw [view_length, h.len]; exact hk)] at this
  rw [Option.some.inj this]

theorem Hist.get' {w : α} {cap : Nat} {r : RingBuf α} {vs : List α} (h : Hist w cap r vs)
    (i : BitVec 64) : r.get i = .ok ((ago vs (i.toNat % cap)).getD w) := by
  rw [get_ok h.wf]
  have hp := h.wf.pos
  have hk : i.toNat % cap < cap := Nat.mod_lt _ (h.len ▸ hp)
  have := h.val _ hk
  rw [List.getElem?_eq_getElem (by rw [view_length, h.len]; exact hk)] at this
  have := Option.some.inj this
  rw [← this]
  simp only [h.len]

theorem Hist.cap_pos {w : α} {cap : Nat} {r : RingBuf α} {vs : List α} (h : Hist w cap r vs) : 0 < cap :=
  h.len ▸ h.wf.pos

theorem Hist.cap_le {w : α} {cap : Nat} {r : RingBuf α} {vs : List α} (h : Hist w cap r vs) :
    cap ≤ 2 ^ 63 := by
  obtain ⟨k, hk, hl⟩ := h.wf.pow
  rw [← h.len, hl]
  exact Nat.pow_le_pow_right (by omega) (by omega)

theorem Hist.back {w : α} {cap : Nat} {r : RingBuf α} {vs : List α} (h : Hist w cap r vs) :
    r.back = .ok ((ago vs (cap - 1)).getD w) := by
  have h1 := h.cap_pos
  have h2 := h.cap_le
  have : BitVec.ofNat 64 r.size - 1 = BitVec.ofNat 64 (cap - 1) := by
    apply BitVec.eq_of_toNat_eq
    rw [BitVec.toNat_sub, BitVec.toNat_ofNat, BitVec.toNat_ofNat, RingBuf.size, h.len]
    show (2^64 - 1 + _) % 2^64 = _
    omega
  rw [RingBuf.back, this, h.get _ (by omega)]

theorem hist_mk' (zero : α) (size : Nat) (hs : size ≤ 2 ^ 63) :
    Hist zero (smallestPow2 size) (mk' zero size) [] := by
  refine ⟨mk'_wf zero size hs, by simp [mk'], ?_⟩
  intro k hk
  rw [mk'_view, List.getElem?_replicate, if_pos hk]; simp [ago]

theorem Hist.run_pushes {w : α} {cap : Nat} {r : RingBuf α} {vs : List α} (h : Hist w cap r vs) (zero : α)
    (us : List α) : ∃ r', r.run zero (us.map .push) = .ok r' ∧ Hist w cap r' (vs ++ us) := by
  induction us generalizing r vs with
  | nil => exact ⟨r, rfl, by simpa using h⟩
  | cons u us ih =>
    obtain ⟨r1, e1, h1⟩ := h.push u
    obtain ⟨r2, e2, h2⟩ := ih h1
    refine ⟨r2, ?_, by simpa using h2⟩
    simp only [List.map_cons, run, step, e1]; exact e2

theorem Hist.fill {w : α} {cap : Nat} {r : RingBuf α} {vs : List α} (h : Hist w cap r vs) (v : α) :
    Hist v cap (r.fill v) [] := by
  refine ⟨fill_wf h.wf v, by simp [RingBuf.fill, h.len], ?_⟩
  intro k hk
  rw [fill_view, List.getElem?_replicate, if_pos (h.len ▸ hk)]; simp [ago]

end RingBuf
end Verif
