import Verif.Model.ZeroCrossing
import Verif.Proof.Ring
import Mathlib.Tactic.Linarith
import Mathlib.Data.List.TakeWhile
/-! The invariant of `zero_crossing`, in terms of the list of stored edges, newest first. -/
namespace Verif
variable {F : Type}
attribute [local irreducible] i32 u64

/-- `Closed W b es`: `es` (newest first) are closed pulses, disjoint, in time order, all ending before `b`;
all but the oldest end at a non-negative frame, the oldest no earlier than `-W/2`; no pulse is longer than
`2W + 1` frames. -/
def Closed (W : Int) : Int → List (ZInfo F) → Prop
  | _, [] => True
  | b, e :: es => e.leading < e.trailing ∧ e.trailing < b ∧ e.trailing - e.leading ≤ 2 * W + 1 ∧
      (es ≠ [] → 0 ≤ e.trailing) ∧ -W ≤ 2 * e.trailing ∧ Closed W e.leading es

theorem Closed.mono {W b b' : Int} {es : List (ZInfo F)} (h : Closed W b es) (hb : b ≤ b') :
    Closed W b' es := by
  cases es with
  | nil => trivial
  | cons e es => obtain ⟨h1, h2, h3⟩ := h; exact ⟨h1, by omega, h3⟩

/-- Moving an edge `n` frames back. -/
def ZInfo.back (n : Nat) (e : ZInfo F) : ZInfo F :=
  { e with leading := i32 (e.leading - n), trailing := i32 (e.trailing - n) }

theorem Closed.back_tail {W b : Int} {n : Nat} {es : List (ZInfo F)} (h : Closed W b es)
    (hW : 2 * W < 2 ^ 29) (hb : b ≤ 2 ^ 30) (hn : 2 * (n : Int) ≤ W) :
    Closed W (b - n) ((es.map (ZInfo.back n)).takeWhile fun e => decide (0 ≤ e.trailing)) := by
  induction es generalizing b with
  | nil => trivial
  | cons e es ih =>
    obtain ⟨h1, h2, h3, h4, h5, h6⟩ := h
    rw [List.map_cons, List.takeWhile_cons]
    split
    · rename_i hc
      have i1 : i32 (e.leading - n) = e.leading - n := i32_id (by omega) (by omega)
      have i2 : i32 (e.trailing - n) = e.trailing - n := i32_id (by omega) (by omega)
      simp only [ZInfo.back, i2, decide_eq_true_eq] at hc
      refine ⟨?_, ?_, ?_, ?_, ?_, ?_⟩
      · simp only [ZInfo.back, i1, i2]; omega
      · simp only [ZInfo.back, i2]; omega
      · simp only [ZInfo.back, i1, i2]; omega
      · intro _; simp only [ZInfo.back, i2]; exact hc
      · simp only [ZInfo.back, i2]; omega
      · simp only [ZInfo.back, i1]
        exact ih h6 (by omega)
    · trivial

/-- The list after `shift(n)`: the newest edge and the following ones that still end at or after frame 0. -/
def shiftEdges (n : Nat) : List (ZInfo F) → List (ZInfo F)
  | [] => []
  | e :: es => e.back n :: (es.map (ZInfo.back n)).takeWhile fun e => decide (0 ≤ e.trailing)

theorem Closed.shift {W b : Int} {n : Nat} {es : List (ZInfo F)} (h : Closed W b es) (hl : 2 ≤ es.length)
    (hW : 2 * W < 2 ^ 29) (hb : b ≤ 2 ^ 30) (hn : 2 * (n : Int) ≤ W) :
    Closed W (b - n) (shiftEdges n es) := by
  match es, hl with
  | e :: e2 :: es, _ =>
    obtain ⟨h1, h2, h3, h4, h5, h6⟩ := h
    have h4' := h4 (by simp)
    have i1 : i32 (e.leading - n) = e.leading - n := i32_id (by omega) (by omega)
    have i2 : i32 (e.trailing - n) = e.trailing - n := i32_id (by omega) (by omega)
    have key := h6.back_tail (n := n) hW (by omega) hn
    have hpos : ∀ x ∈ ((e2 :: es).map (ZInfo.back n)).takeWhile (fun e => decide (0 ≤ e.trailing)),
        0 ≤ x.trailing := by
      intro x hx
      have := List.mem_takeWhile_imp hx
      simpa using this
    rw [shiftEdges]
    generalize ((e2 :: es).map (ZInfo.back n)).takeWhile (fun e => decide (0 ≤ e.trailing)) = l at key hpos
    refine ⟨?_, ?_, ?_, ?_, ?_, ?_⟩
    · simp only [ZInfo.back, i1, i2]; omega
    · simp only [ZInfo.back, i2]; omega
    · simp only [ZInfo.back, i1, i2]; omega
    · intro hne
      match l, hne with
      | x :: l, _ =>
        have hx := hpos x (by simp)
        have := key.2.1
        simp only [ZInfo.back, i2]; omega
    · simp only [ZInfo.back, i2]; omega
    · simp only [ZInfo.back, i1]; exact key

theorem shiftEdges_length (n : Nat) (es : List (ZInfo F)) (h : es ≠ []) :
    1 ≤ (shiftEdges n es).length ∧ (shiftEdges n es).length ≤ es.length := by
  match es, h with
  | e :: es, _ =>
    simp only [shiftEdges, List.length_cons]
    have := List.IsPrefix.length_le (List.takeWhile_prefix (l := es.map (ZInfo.back n))
      (fun e => decide (0 ≤ e.trailing)))
    rw [List.length_map] at this
    omega

set_option linter.unusedSectionVars false

namespace ZC
variable [FloatOps F]

/-- The edges stored in the detector, newest first. -/
def edges (z : ZC F) : List (ZInfo F) := z.info.view.take z.numEdges

/-- The frame counter in the coordinates of the stored edges (which lag behind while `ready`). -/
def vframe (z : ZC F) : Int := z.frame + if z.ready then (z.window / 2 : Nat) else 0

/-- The stored edges: all closed if the state is low, all but the newest if it is high. -/
def EdgesOk (W : Int) (b : Int) : Bool → List (ZInfo F) → Prop
  | false, es => Closed W b es
  | true, [] => False
  | true, e :: es => 0 ≤ e.leading ∧ e.leading < b ∧ Closed W e.leading es

/-- The shape of the storage. -/
structure Rep (W : Nat) (z : ZC F) : Prop where
  window : z.window = W
  wf : z.info.WF
  cap : z.info.data.length = smallestPow2 (W / 2)
  le : z.numEdges ≤ z.info.data.length

/-- The invariant that holds between calls. -/
structure Inv (W : Nat) (z : ZC F) : Prop extends Rep W z where
  full : z.numEdges = z.info.data.length → z.state = true
  ready : z.ready = true → z.state = false ∧ 2 ≤ z.numEdges ∧ W ≤ 2 * z.frame
  frame : z.vframe ≤ 2 * W + 1
  ok : EdgesOk W z.vframe z.state z.edges

/-- Window sizes: a multiple of 64, at least 128; the upper bound keeps frame numbers inside `int`. -/
structure WOk (W : Nat) : Prop where
  ge : 128 ≤ W
  even : 64 ∣ W
  lt : W < 2 ^ 28

theorem wok_adjust (w : Nat) (h : w ≤ 2 ^ 27) : WOk (adjustWindowSize w * 64) :=
  ⟨by rw [adjustWindowSize]; omega, ⟨_, Nat.mul_comm _ _⟩, by rw [adjustWindowSize]; omega⟩

theorem Rep.edges_length {W : Nat} {z : ZC F} (h : Rep W z) : z.edges.length = z.numEdges := by
  rw [edges, List.length_take, RingBuf.view_length]; have := h.le; omega

theorem Rep.cap_ge {W : Nat} {z : ZC F} (h : Rep W z) : W / 2 ≤ z.info.data.length := by
  rw [h.cap]; exact smallestPow2_ge _

theorem cap_lt {r : RingBuf (ZInfo F)} (h : r.WF) : r.data.length < 2 ^ 64 := by
  obtain ⟨k, hk, e⟩ := h.pow
  rw [e]; exact Nat.pow_lt_pow_right (by omega) hk

theorem inv_mk (hyst : F) (w : Nat) (h : w ≤ 2 ^ 27) :
    Inv (adjustWindowSize w * 64) (mk' hyst w) := by
  have hw := wok_adjust w h
  have h1 := hw.ge
  have h2 := hw.lt
  have hl : (mk' hyst w).info.data.length = smallestPow2 (adjustWindowSize w * 64 / 2) := by
    simp [mk', RingBuf.mk']
  refine ⟨⟨rfl, RingBuf.mk'_wf _ _ (by omega), hl, Nat.zero_le _⟩, ?_, ?_, ?_, ?_⟩
  · intro he
    rw [hl] at he
    have := smallestPow2_pos (adjustWindowSize w * 64 / 2)
    have : (mk' hyst w).numEdges = 0 := rfl
    omega
  · intro hr; exact absurd hr (by simp [mk'])
  · simp only [vframe, mk']; simp; omega
  · show Closed ((adjustWindowSize w * 64 : Nat) : Int) ((mk' hyst w).vframe) ((mk' hyst w).info.view.take 0)
    rw [List.take_zero]; trivial

/-! ### reset -/

theorem Rep.reset {W : Nat} {z : ZC F} (h : Rep W z) : Rep W z.reset :=
  ⟨h.window, h.wf, h.cap, Nat.zero_le _⟩

theorem reset_edges (z : ZC F) : z.reset.edges = [] := by simp [edges, ZC.reset]

theorem Rep.inv_reset {W : Nat} {z : ZC F} (h : Rep W z) (hr : z.ready = false) : Inv W z.reset := by
  refine ⟨h.reset, ?_, ?_, ?_, ?_⟩
  · intro he
    have : 0 < z.info.data.length := h.wf.pos
    simp [ZC.reset] at he; simp [he] at this
  · intro h; simp [ZC.reset, hr] at h
  · simp [vframe, ZC.reset, hr]; omega
  · rw [reset_edges]; trivial

/-! ### shift -/

theorem shiftLoop_ok (n numEdges : Nat) (fuel i : Nat) (r : RingBuf (ZInfo F)) (h : r.WF)
    (hn : numEdges ≤ r.data.length) (hi : i ≤ numEdges) (hf : numEdges - i < fuel) :
    ∃ j r', shiftLoop n numEdges fuel i r = .ok (j, r') ∧ r'.WF ∧ r'.data.length = r.data.length ∧
      i ≤ j ∧ j ≤ numEdges ∧
      r'.view.take j = r.view.take i ++
        ((((r.view.take numEdges).drop i).map (ZInfo.back n)).takeWhile fun e => decide (0 ≤ e.trailing)) := by
  induction fuel generalizing i r with
  | zero => omega
  | succ fuel ih =>
    rw [shiftLoop]
    by_cases he : i = numEdges
    · subst he
      refine ⟨i, r, by rw [if_pos rfl], h, rfl, Nat.le_refl _, Nat.le_refl _, ?_⟩
      rw [List.drop_eq_nil_of_le (by simp)]
      simp
    · have hil : i < r.data.length := by omega
      have hlt := cap_lt h
      have hiv : i < r.view.length := by rw [RingBuf.view_length]; exact hil
      rw [if_neg he, RingBuf.get_ok_nat h i hil]
      simp only [bind, Except.bind]
      obtain ⟨r1, e1, wf1, l1, v1⟩ := RingBuf.assign_ok h (BitVec.ofNat 64 i) ((r.view[i]).back n)
      rw [BitVec.toNat_ofNat, Nat.mod_eq_of_lt (by omega : i < 2 ^ 64), Nat.mod_eq_of_lt hil] at v1
      have e1' : r.assign (BitVec.ofNat 64 i) { r.view[i] with leading := i32 (r.view[i].leading - n), trailing := i32 (r.view[i].trailing - n) } = .ok r1 := e1
      rw [e1']
      simp only []
      have hdrop : (r.view.take numEdges).drop i = r.view[i] :: (r.view.take numEdges).drop (i + 1) := by
        have hi2 : i < (r.view.take numEdges).length := by rw [List.length_take]; omega
        rw [List.drop_eq_getElem_cons hi2, List.getElem_take]
      rw [hdrop, List.map_cons, List.takeWhile_cons]
      by_cases hneg : i32 (r.view[i].trailing - n) < 0
      · rw [if_pos hneg, if_neg (by rw [Bool.not_eq_true]; exact decide_eq_false (show ¬ 0 ≤ i32 _ by omega))]
        refine ⟨i, r1, rfl, wf1, l1, Nat.le_refl _, hi, ?_⟩
        rw [v1, List.take_set_of_le (Nat.le_refl _), List.append_nil]
      · rw [if_neg hneg, if_pos (decide_eq_true (show 0 ≤ (ZInfo.back n r.view[i]).trailing from Int.not_lt.1 hneg))]
        obtain ⟨j, r', e2, wf2, l2, h2, h3, hv⟩ := ih (i + 1) r1 wf1 (by omega) (by omega) (by omega)
        refine ⟨j, r', e2, wf2, by omega, by omega, h3, ?_⟩
        rw [hv, v1]
        have hs1 : (r.view.set i (r.view[i].back n)).take (i + 1) = r.view.take i ++ [r.view[i].back n] := by
          rw [List.take_succ_eq_append_getElem (by rw [List.length_set]; exact hiv),
            List.take_set_of_le (Nat.le_refl _), List.getElem_set_self]
        have hs2 : ((r.view.set i (r.view[i].back n)).take numEdges).drop (i + 1) =
            (r.view.take numEdges).drop (i + 1) := by
          rw [List.drop_take, List.drop_take, List.drop_set_of_lt (by omega)]
        rw [hs1, hs2, List.append_assoc]
        rfl

theorem shift_ok {W : Nat} {z : ZC F} (h : Rep W z) (n : Nat) (hs : z.state = false) (h1 : 1 ≤ z.numEdges)
    (hl : z.numEdges < 2 ^ 31) :
    ∃ r k, z.shift n = .ok { z with info := r, numEdges := k } ∧ r.WF ∧
      r.data.length = z.info.data.length ∧ 1 ≤ k ∧ k ≤ z.numEdges ∧ r.view.take k = shiftEdges n z.edges := by
  have hp := h.wf.pos
  have hle := h.le
  have h0 : (0 : BitVec 64) = BitVec.ofNat 64 0 := rfl
  rw [shift, h0, RingBuf.get_ok_nat h.wf 0 hp]
  simp only [bind, Except.bind, hs, Bool.not_false, if_true]
  have hv0 : 0 < z.info.view.length := by rw [RingBuf.view_length]; exact hp
  obtain ⟨r1, e1, wf1, l1, v1⟩ := RingBuf.assign_ok h.wf (BitVec.ofNat 64 0) ((z.info.view[0]).back n)
  have e1' : z.info.assign (BitVec.ofNat 64 0) { z.info.view[0] with
    leading := i32 (z.info.view[0].leading - n), trailing := i32 (z.info.view[0].trailing - n) } = .ok r1 := e1
  rw [e1']
  simp only []
  have hz : (BitVec.ofNat 64 0).toNat % z.info.data.length = 0 := by simp
  rw [hz] at v1
  obtain ⟨j, r', e2, wf2, l2, h2, h3, hv⟩ := shiftLoop_ok n z.numEdges (2 ^ 31 - 1) 1 r1 wf1 (by omega) h1 (by omega)
  rw [e2]
  refine ⟨r', j, rfl, wf2, by omega, h2, h3, ?_⟩
  rw [hv, v1]
  have hcons : z.edges = z.info.view[0] :: (z.info.view.take z.numEdges).drop 1 := by
    have hi2 : 0 < (z.info.view.take z.numEdges).length := by rw [List.length_take]; omega
    have := List.drop_eq_getElem_cons hi2
    rw [List.getElem_take] at this
    simpa [edges] using this
  rw [hcons, shiftEdges]
  have hs1 : (z.info.view.set 0 (z.info.view[0].back n)).take 1 = [z.info.view[0].back n] := by
    rw [List.take_succ_eq_append_getElem (by rw [List.length_set]; exact hv0), List.getElem_set_self]
    simp
  have hs2 : ((z.info.view.set 0 (z.info.view[0].back n)).take z.numEdges).drop 1 =
      (z.info.view.take z.numEdges).drop 1 := by
    rw [List.drop_take, List.drop_take, List.drop_set_of_lt (by omega)]
  rw [hs1, hs2]
  rfl

/-! ### the phases of a call -/

theorem preShift_ok {W : Nat} (hW : WOk W) {z : ZC F} (h : Inv W z) :
    ∃ z', z.preShift = .ok z' ∧ Inv W z' ∧ z'.ready = false ∧ z'.frame = z.frame ∧ z'.state = z.state ∧
      z'.hyst = z.hyst ∧ z'.prev = z.prev ∧ (z.numEdges < z.info.data.length → z'.numEdges < z'.info.data.length) ∧
      (z.ready = false → z' = z) ∧ (z.ready = true → z'.edges = shiftEdges (W / 2) z.edges) := by
  have hlt := hW.lt
  have hge := hW.ge
  rw [preShift]
  by_cases hr : z.ready = true
  · obtain ⟨hs, h2, hfr⟩ := h.ready hr
    have hle := h.le
    have hcap : z.numEdges < 2 ^ 31 := by
      have := smallestPow2_least (W / 2) 27 (by omega)
      rw [← h.cap] at this; omega
    obtain ⟨r, k, e, wf, l, hk1, hk2, hv⟩ := shift_ok h.toRep (z.window / 2) hs (by omega) hcap
    rw [if_pos hr, e]
    simp only [bind, Except.bind]
    have hvf : z.vframe = z.frame + (W / 2 : Nat) := by simp [vframe, hr, h.window]
    have hv' : z.vframe - ((z.window / 2 : Nat) : Int) = z.frame := by rw [hvf, h.window]; omega
    have hfrm := h.frame
    refine ⟨_, rfl, ⟨⟨h.window, wf, by rw [← h.cap]; exact l, by show k ≤ _; rw [l]; omega⟩, ?_, ?_, ?_, ?_⟩, rfl, rfl, rfl, rfl, rfl, ?_, ?_, ?_⟩
    · intro he
      have he' : k = r.data.length := he
      have : z.numEdges = z.info.data.length := by omega
      rw [h.full this] at hs; cases hs
    · intro h; cases h
    · show ((z.frame : Int) + _) ≤ _
      simp; omega
    · have hok := h.ok
      rw [hs] at hok
      have hcl := Closed.shift (n := z.window / 2) hok (by rw [h.toRep.edges_length]; exact h2) (by omega) (by omega)
        (by rw [h.window]; omega)
      rw [hv'] at hcl
      show EdgesOk _ _ z.state (r.view.take k)
      rw [hs, hv]
      exact hcl.mono (by simp [vframe])
    · intro hn; show k < r.data.length; omega
    · intro hn; rw [hr] at hn; cases hn
    · intro _; rw [← h.window]; exact hv
  · rw [if_neg hr]
    have hr' : z.ready = false := by simpa using hr
    exact ⟨z, rfl, h, hr', rfl, rfl, rfl, rfl, fun h => h, fun _ => rfl, fun h => absurd h hr⟩

theorem capReset_ok {W : Nat} {z : ZC F} (h : Inv W z) (_hr : z.ready = true → z.numEdges < z.info.data.length) :
    Inv W z.capReset ∧ z.capReset.numEdges < z.capReset.info.data.length ∧
    z.capReset.ready = z.ready ∧ (z.numEdges < z.info.data.length → z.capReset = z) ∧
    z.capReset.hyst = z.hyst ∧ z.capReset.prev = z.prev ∧
    (z.capReset = z ∨ (z.capReset = z.reset)) := by
  have hle := h.le
  have hp := h.wf.pos
  rw [capReset, capacity, RingBuf.size]
  by_cases hc : z.numEdges ≥ z.info.data.length
  · rw [if_pos hc]
    have hr' : z.ready = false := by
      by_contra hcon
      have := _hr (by simpa using hcon)
      omega
    exact ⟨h.toRep.inv_reset hr', hp, rfl, fun h => by omega, rfl, rfl, Or.inr rfl⟩
  · rw [if_neg hc]
    exact ⟨h, by omega, rfl, fun _ => rfl, rfl, rfl, Or.inl rfl⟩

theorem idleReset_ok {W : Nat} {z : ZC F} (h : Inv W z) :
    Inv W z.idleReset ∧ (z.idleReset.ready = z.ready) ∧ z.idleReset.hyst = z.hyst ∧
    z.idleReset.state = z.state ∧ z.idleReset.numEdges = z.numEdges ∧
    z.idleReset.info = z.info ∧ z.idleReset.prev = z.prev := by
  rw [idleReset]
  split
  · rename_i hc
    have hr : z.ready = false := by
      by_contra hcon
      have := (h.ready (by simpa using hcon)).2.1
      omega
    have hs : z.state = false := by
      have hok := h.ok
      have he : z.edges = [] := by rw [edges, hc.2]; rfl
      rw [he] at hok
      by_contra hcon
      rw [show z.state = true by simpa using hcon] at hok
      exact hok
    refine ⟨h.toRep.inv_reset hr, rfl, rfl, ?_, ?_, rfl, rfl⟩
    · simp [ZC.reset, hs]
    · simp [ZC.reset, hc.2]
  · exact ⟨h, rfl, rfl, rfl, rfl, rfl, rfl⟩

/-- The state between `detect` and `advance`: like `Inv` but the newest event may be at the current frame. -/
structure Mid (W : Nat) (z : ZC F) : Prop extends Rep W z where
  full : z.numEdges = z.info.data.length → z.state = true
  ready : z.ready = false
  frame : z.frame ≤ 2 * W + 1
  ok : EdgesOk W (z.frame + 1) z.state z.edges

theorem view_cons {r : RingBuf (ZInfo F)} (h : r.WF) {n : Nat} (hn : 1 ≤ n) :
    ∃ e l, r.view = e :: l ∧ r.get 0 = .ok e ∧ r.view.take n = e :: l.take (n - 1) := by
  have hp := h.pos
  have h0 : (0 : BitVec 64) = BitVec.ofNat 64 0 := rfl
  have hv0 : 0 < r.view.length := by rw [RingBuf.view_length]; exact hp
  rw [h0, RingBuf.get_ok_nat h 0 hp]
  obtain ⟨m, rfl⟩ : ∃ m, n = m + 1 := ⟨n - 1, by omega⟩
  have key : ∀ (v : List (ZInfo F)) (h : 0 < v.length), ∃ e l, v = e :: l ∧
      (Except.ok v[0] : C (ZInfo F)) = .ok e ∧ v.take (m + 1) = e :: l.take (m + 1 - 1) := by
    intro v h
    cases v with
    | nil => simp at h
    | cons e l => exact ⟨e, l, rfl, rfl, rfl⟩
  exact key _ hv0

theorem assign_zero {r : RingBuf (ZInfo F)} (h : r.WF) {n : Nat} (hn : 1 ≤ n) {e : ZInfo F} {l : List (ZInfo F)}
    (hv : r.view = e :: l) (v : ZInfo F) :
    ∃ r', r.assign 0 v = .ok r' ∧ r'.WF ∧ r'.data.length = r.data.length ∧
      r'.view.take n = v :: l.take (n - 1) := by
  obtain ⟨r1, e1, wf1, l1, v1⟩ := RingBuf.assign_ok h 0 v
  refine ⟨r1, e1, wf1, l1, ?_⟩
  have hz : (0 : BitVec 64).toNat % r.data.length = 0 := by simp
  rw [v1, hz, hv]
  obtain ⟨m, rfl⟩ : ∃ m, n = m + 1 := ⟨n - 1, by omega⟩
  rfl

open FloatOps in
/-- What the detection does to the stored edges. -/
def detectEdges (prev : F) (frame : Nat) (hyst s : F) : Bool → List (ZInfo F) → List (ZInfo F)
  | true, e :: es =>
    if lt (lit 0) s then updatePeak e s frame :: es
    else if lt s hyst then { e with trailing := frame } :: es else e :: es
  | true, [] => []
  | false, es =>
    if lt (lit 0) s then { crossing := (prev, s), peak := s, leading := frame, width := lit 0 } :: es else es

open FloatOps in
theorem detect_ok {W : Nat} (hW : WOk W) {z : ZC F} (h : Inv W z) (hr : z.ready = false)
    (hn : z.numEdges < z.info.data.length) (s : F) :
    ∃ z', z.detect s = .ok z' ∧ Mid W z' ∧ z'.frame = z.frame ∧ z'.hyst = z.hyst ∧
      (z'.state = if lt (lit 0) s then true else if z.state && lt s z.hyst then false else z.state) ∧
      (z'.edges = detectEdges z.prev z.frame z.hyst s z.state z.edges) := by
  have hlt := hW.lt
  have hvf : z.vframe = z.frame := by simp [vframe, hr]
  have hfr := h.frame
  rw [hvf] at hfr
  have hfi : i32 (z.frame : Int) = z.frame := i32_id (by omega) (by omega)
  have hok := h.ok
  rw [hvf] at hok
  rw [detect]
  by_cases hs : lt (lit 0) s = true
  · rw [if_pos hs]
    by_cases hst : z.state = true
    · -- state high: update the peak
      rw [hst] at hok
      have h1 : 1 ≤ z.numEdges := by
        rw [← h.toRep.edges_length]
        cases he : z.edges with
        | nil => rw [he] at hok; exact hok.elim
        | cons => simp
      obtain ⟨e, l, hv, hg, ht⟩ := view_cons h.wf h1
      obtain ⟨r', ea, wf, hl, hv'⟩ := assign_zero h.wf h1 hv (updatePeak e s z.frame)
      simp only [hst, Bool.not_true, hg, bind, Except.bind, ea]
      rw [if_neg (by simp)]
      refine ⟨_, rfl, ⟨⟨h.window, wf, by rw [← h.cap]; exact hl, by show z.numEdges ≤ _; rw [hl]; omega⟩, ?_, hr, ?_, ?_⟩, rfl, rfl, ?_, ?_⟩
      · intro _; rfl
      · show z.frame ≤ _; omega
      · have hed : z.edges = e :: l.take (z.numEdges - 1) := ht
        rw [hed] at hok
        show EdgesOk _ _ true (r'.view.take z.numEdges)
        rw [hv']
        exact ⟨hok.1, by show e.leading < _; have := hok.2.1; simp only; omega, hok.2.2⟩
      · show true = _; rw [if_pos hs]
      · show r'.view.take z.numEdges = _
        rw [hv', show z.edges = e :: l.take (z.numEdges - 1) from ht, detectEdges, if_pos hs]
    · have hst : z.state = false := by simpa using hst
      rw [hst] at hok
      have hn' : z.numEdges < z.info.size := hn
      simp only [hst, Bool.not_false, if_true, bind, Except.bind]
      rw [if_pos hn']
      obtain ⟨r', ep, wf, hl, hv'⟩ := RingBuf.push_ok h.wf
        { crossing := (z.prev, s), peak := s, leading := i32 z.frame, width := lit 0 }
      rw [ep]
      refine ⟨_, rfl, ⟨⟨h.window, wf, by rw [← h.cap]; exact hl, by show z.numEdges + 1 ≤ _; rw [hl]; omega⟩, fun _ => rfl, hr, ?_, ?_⟩, rfl, rfl, ?_, ?_⟩
      · show z.frame ≤ _; omega
      · show EdgesOk _ _ true (r'.view.take (z.numEdges + 1))
        rw [hv', List.take_succ_cons]
        have : z.info.view.dropLast.take z.numEdges = z.edges := by
          rw [edges, List.dropLast_eq_take, List.take_take, RingBuf.view_length]
          congr 1; omega
        rw [this]
        refine ⟨?_, ?_, ?_⟩
        · show 0 ≤ i32 z.frame; rw [hfi]; omega
        · show i32 z.frame < z.frame + 1; rw [hfi]; omega
        · show Closed _ (i32 z.frame) _; rw [hfi]; exact hok
      · show true = _; rw [if_pos hs]
      · show r'.view.take (z.numEdges + 1) = _
        rw [hv', List.take_succ_cons]
        have : z.info.view.dropLast.take z.numEdges = z.edges := by
          rw [edges, List.dropLast_eq_take, List.take_take, RingBuf.view_length]
          congr 1; omega
        rw [this, hfi, detectEdges, if_pos hs]
  · rw [if_neg hs]
    by_cases hc : (z.state && lt s z.hyst) = true
    · rw [if_pos hc]
      have hst : z.state = true := by simp at hc; exact hc.1
      rw [hst] at hok
      have h1 : 1 ≤ z.numEdges := by
        rw [← h.toRep.edges_length]
        cases he : z.edges with
        | nil => rw [he] at hok; exact hok.elim
        | cons => simp
      obtain ⟨e, l, hv, hg, ht⟩ := view_cons h.wf h1
      obtain ⟨r', ea, wf, hl, hv'⟩ := assign_zero h.wf h1 hv { e with trailing := i32 z.frame }
      simp only [hg, bind, Except.bind, ea]
      refine ⟨_, rfl, ⟨⟨h.window, wf, by rw [← h.cap]; exact hl, by show z.numEdges ≤ _; rw [hl]; omega⟩, ?_, hr, ?_, ?_⟩, rfl, rfl, ?_, ?_⟩
      · intro he
        have he' : z.numEdges = r'.data.length := he
        omega
      · show z.frame ≤ _; omega
      · have hed : z.edges = e :: l.take (z.numEdges - 1) := ht
        rw [hed] at hok
        obtain ⟨o1, o2, o3⟩ := hok
        show EdgesOk _ _ false (r'.view.take z.numEdges)
        rw [hv']
        refine ⟨?_, ?_, ?_, ?_, ?_, o3⟩ <;> simp only [hfi] <;> omega
      · show false = _; rw [if_neg hs, if_pos hc]
      · show r'.view.take z.numEdges = _
        rw [hv', show z.edges = e :: l.take (z.numEdges - 1) from ht, hfi, hst, detectEdges, if_neg hs,
          if_pos (by simp at hc; exact hc.2)]
    · rw [if_neg hc]
      refine ⟨z, rfl, ⟨h.toRep, h.full, hr, by omega, ?_⟩, rfl, rfl, ?_, ?_⟩
      · revert hok
        cases z.state with
        | false => intro hok; exact Closed.mono hok (by omega)
        | true =>
          cases z.edges with
          | nil => intro hok; exact hok
          | cons e es => intro hok; exact ⟨hok.1, by have := hok.2.1; omega, hok.2.2⟩
      · rw [if_neg hs, if_neg hc]
      · cases hst : z.state with
        | false => rw [detectEdges, if_neg hs]
        | true =>
          cases hed : z.edges with
          | nil => rw [detectEdges]
          | cons e es => rw [detectEdges, if_neg hs, if_neg (by simpa [hst] using hc)]

theorem Mid.reset {W : Nat} {z : ZC F} (h : Mid W z) : Mid W z.reset := by
  refine ⟨h.toRep.reset, ?_, h.ready, Nat.zero_le _, ?_⟩
  · intro he
    have : 0 < z.info.data.length := h.wf.pos
    simp [ZC.reset] at he; simp [he] at this
  · rw [reset_edges]; trivial

theorem lateReset_ok {W : Nat} {z : ZC F} (h : Mid W z) :
    Mid W z.lateReset ∧ z.lateReset.frame ≤ 2 * W ∧ z.lateReset.hyst = z.hyst ∧
    z.lateReset.state = (if z.frame > 2 * W then false else z.state) ∧
    (z.lateReset = z ∧ z.frame ≤ 2 * W ∨ z.lateReset = z.reset) := by
  have hf := h.frame
  rw [lateReset, h.window]
  by_cases hc : z.frame > W * 2
  · rw [if_pos hc, if_pos (by omega)]
    exact ⟨h.reset, Nat.zero_le _, rfl, rfl, Or.inr rfl⟩
  · rw [if_neg hc, if_neg (by omega)]
    exact ⟨h, by omega, rfl, rfl, Or.inl ⟨rfl, by omega⟩⟩

theorem advance_ok {W : Nat} (hW : WOk W) {z : ZC F} (h : Mid W z) (hf : z.frame ≤ 2 * W) :
    Inv W z.advance ∧ z.advance.state = z.state ∧ z.advance.hyst = z.hyst ∧
      (z.advance.edges = z.edges ∧ z.advance.vframe = z.frame + 1 ∨ z.advance.edges = []) := by
  have hge := hW.ge
  have hlt := hW.lt
  rw [advance, h.window]
  by_cases hc : W ≤ z.frame + 1 ∧ z.state = false
  · rw [if_pos hc]
    simp only []
    have hok := h.ok
    rw [hc.2] at hok
    split
    · rename_i h2
      have hvf : ((z.frame + 1 - W / 2 : Nat) : Int) + ((W / 2 : Nat) : Int) = z.frame + 1 := by omega
      refine ⟨⟨⟨rfl, h.wf, h.cap, h.le⟩, h.full, fun _ => ⟨hc.2, h2, ?_⟩, ?_, ?_⟩, rfl, rfl, Or.inl ⟨rfl, by simp only [vframe, if_true]; exact hvf⟩⟩
      · show W ≤ 2 * (z.frame + 1 - W / 2); omega
      · simp only [vframe, h.window, if_true]; omega
      · show EdgesOk _ _ z.state z.edges
        simp only [vframe, h.window, if_true, hc.2, hvf]
        exact hok
    · refine ⟨Rep.inv_reset ⟨rfl, h.wf, h.cap, h.le⟩ h.ready, hc.2.symm, rfl, Or.inr (reset_edges _)⟩
  · rw [if_neg hc]
    have hr := h.ready
    refine ⟨⟨⟨rfl, h.wf, h.cap, h.le⟩, h.full, ?_, ?_, ?_⟩, rfl, rfl, Or.inl ⟨rfl, by simp [vframe, hr]⟩⟩
    · intro hr'; rw [show z.ready = true from hr'] at hr; cases hr
    · simp only [vframe, hr]; simp; omega
    · show EdgesOk _ _ z.state z.edges
      simp only [vframe, hr]
      simpa using h.ok

/-! ### the stored edges are pulses of the output -/

/-- The output at (absolute) time `k`, if there is one. -/
def atT (ys : List Bool) (k : Int) : Option Bool := if 0 ≤ k then ys[k.toNat]? else none

theorem atT_append (ys : List Bool) (b : Bool) (k : Int) (v : Bool) (h : atT ys k = some v) :
    atT (ys ++ [b]) k = some v := by
  rw [atT] at h ⊢
  split
  · rename_i h0
    rw [if_pos h0] at h
    rw [List.getElem?_append_left (by rw [List.getElem?_eq_some_iff] at h; exact h.1)]
    exact h
  · rename_i h0; rw [if_neg h0] at h; exact h

theorem atT_last (ys : List Bool) (b : Bool) (k : Int) (h : k = ys.length) : atT (ys ++ [b]) k = some b := by
  subst h
  rw [atT, if_pos (by omega)]
  simp

/-- The closed edge `e`, in coordinates where frame 0 is the absolute time `o`, is a pulse of the output. -/
def RealC (ys : List Bool) (o : Int) (e : ZInfo F) : Prop :=
  (∀ t, e.leading ≤ t → t < e.trailing → atT ys (o + t) = some true) ∧
  atT ys (o + e.trailing) = some false

theorem RealC.append {ys : List Bool} {o : Int} {e : ZInfo F} (h : RealC ys o e) (b : Bool) :
    RealC (ys ++ [b]) o e :=
  ⟨fun t h1 h2 => atT_append _ _ _ _ (h.1 t h1 h2), atT_append _ _ _ _ h.2⟩

/-- All stored edges are pulses of the output; the newest one extends to the present if the state is high. -/
def Real (ys : List Bool) (o : Int) : Bool → List (ZInfo F) → Prop
  | false, es => ∀ e ∈ es, RealC ys o e
  | true, [] => True
  | true, e :: es => (∀ t, e.leading ≤ t → o + t < ys.length → atT ys (o + t) = some true) ∧
      ∀ e ∈ es, RealC ys o e

theorem real_nil (ys : List Bool) (o : Int) (b : Bool) : Real ys o b ([] : List (ZInfo F)) := by
  cases b
  · intro e he; cases he
  · trivial

theorem real_back {ys : List Bool} {o W b : Int} {n : Nat} {es : List (ZInfo F)} (h : Closed W b es)
    (hr : ∀ e ∈ es, RealC ys o e)
    (hW : 2 * W < 2 ^ 29) (hb : b ≤ 2 ^ 30) (hn : 2 * (n : Int) ≤ W) :
    ∀ e ∈ es.map (ZInfo.back n), RealC ys (o + n) e := by
  induction es generalizing b with
  | nil => intro e he; simp at he
  | cons e es ih =>
    obtain ⟨h1, h2, h3, h4, h5, h6⟩ := h
    intro x hx
    rw [List.map_cons, List.mem_cons] at hx
    rcases hx with rfl | hx
    · have i1 : i32 (e.leading - n) = e.leading - n := i32_id (by omega) (by omega)
      have i2 : i32 (e.trailing - n) = e.trailing - n := i32_id (by omega) (by omega)
      have hre := hr e (by simp)
      refine ⟨fun t ht1 ht2 => ?_, ?_⟩
      · simp only [ZInfo.back, i1, i2] at ht1 ht2
        have := hre.1 (t + n) (by omega) (by omega)
        rw [show o + n + t = o + (t + n) by omega]; exact this
      · simp only [ZInfo.back, i2]
        rw [show o + n + (e.trailing - n) = o + e.trailing by omega]; exact hre.2
    · exact ih h6 (fun e he => hr e (by simp [he])) (by omega) x hx

theorem shiftEdges_subset (n : Nat) (es : List (ZInfo F)) :
    ∀ e ∈ shiftEdges n es, e ∈ es.map (ZInfo.back n) := by
  intro e he
  cases es with
  | nil => exact he
  | cons a es =>
    rw [shiftEdges, List.mem_cons] at he
    rw [List.map_cons, List.mem_cons]
    rcases he with h | h
    · exact Or.inl h
    · exact Or.inr (List.IsPrefix.subset (List.takeWhile_prefix _) h)

open FloatOps in
theorem detect_real {ys : List Bool} {frame : Nat} {st : Bool} {es : List (ZInfo F)} (prev hyst s : F)
    (h : Real ys (ys.length - frame) st es) (hst : st = true → es ≠ []) :
    let st' := if lt (lit 0) s then true else if st && lt s hyst then false else st
    Real (ys ++ [st']) (ys.length - frame) st' (detectEdges prev frame hyst s st es) := by
  intro st'
  cases st with
  | false =>
    rw [detectEdges]
    by_cases hs : lt (lit 0) s = true
    · have hst' : st' = true := by simp only [st', hs, if_true]
      rw [if_pos hs, hst']
      refine ⟨?_, fun e he => (h e he).append _⟩
      intro t h1 h2
      simp only [List.length_append, List.length_cons, List.length_nil] at h1 h2
      exact atT_last _ _ _ (by omega)
    · have hst' : st' = false := by simp [st', hs]
      rw [if_neg hs, hst']
      exact fun e he => (h e he).append _
  | true =>
    match es, hst rfl with
    | e :: es, _ =>
      obtain ⟨h1, h2⟩ := h
      rw [detectEdges]
      have hext : ∀ b : Bool, b = true → ∀ t, e.leading ≤ t → ((ys.length : Int) - frame) + t < (ys ++ [b]).length →
          atT (ys ++ [b]) ((ys.length : Int) - frame + t) = some true := by
        intro b hb t ht1 ht2
        simp only [List.length_append, List.length_cons, List.length_nil] at ht2
        rcases lt_or_ge ((ys.length : Int) - frame + t) ys.length with hc | hc
        · exact atT_append _ _ _ _ (h1 t ht1 hc)
        · rw [hb]; exact atT_last _ _ _ (by omega)
      by_cases hs : lt (lit 0) s = true
      · have hst' : st' = true := by simp only [st', hs, if_true]
        rw [if_pos hs, hst']
        exact ⟨hext true rfl, fun e he => (h2 e he).append _⟩
      · by_cases hc : lt s hyst = true
        · have hst' : st' = false := by simp [st', hs, hc]
          rw [if_neg hs, if_pos hc, hst']
          intro x hx
          rw [List.mem_cons] at hx
          rcases hx with rfl | hx
          · refine ⟨fun t ht1 ht2 => ?_, ?_⟩
            · simp only at ht1 ht2
              exact atT_append _ _ _ _ (h1 t ht1 (by omega))
            · simp only
              exact atT_last _ _ _ (by omega)
          · exact (h2 x hx).append _
        · have hst' : st' = true := by simp [st', hs, hc]
          rw [if_neg hs, if_neg hc, hst']
          exact ⟨hext true rfl, fun e he => (h2 e he).append _⟩

open FloatOps in
/-- One call from a state satisfying the invariant succeeds and preserves it. -/
theorem step_ok {W : Nat} (hW : WOk W) {z : ZC F} (h : Inv W z) (x : F) :
    ∃ z', z.step x = .ok (z', z'.state) ∧ Inv W z' ∧ z'.hyst = z.hyst ∧
      (let s := add x (div z.hyst (lit 2))
       let st := z.capReset.state
       z'.state = (if z.capReset.idleReset.frame > 2 * W then false
        else if lt (lit 0) s then true else if st && lt s z.hyst then false else st)) ∧
      (∀ ys : List Bool, Real ys (ys.length - z.vframe) z.state z.edges →
        Real (ys ++ [z'.state]) ((ys.length + 1 : Int) - z'.vframe) z'.state z'.edges) := by
  have hcr : z.ready = true → z.numEdges < z.info.data.length := by
    intro hr
    have hle := h.le
    have := (h.ready hr).1
    rcases Nat.lt_or_ge z.numEdges z.info.data.length with h1 | h1
    · exact h1
    · rw [h.full (by omega)] at this; cases this
  obtain ⟨i1, n1, r1, e1, hy1, p1, c1⟩ := capReset_ok h hcr
  obtain ⟨i2, r2, hy2, s2, n2, f2, p2⟩ := idleReset_ok i1
  obtain ⟨z3, e3, i3, r3, fr3, s3, hy3, p3, n3, eq3, ed3⟩ := preShift_ok hW i2
  have n3' := n3 (by rw [n2, f2]; exact n1)
  obtain ⟨i4, n4, r4, e4, hy4, p4, -⟩ := capReset_ok i3 (by intro _; exact n3')
  have e4' := e4 n3'
  obtain ⟨z5, e5, m5, fr5, hy5, s5, ed5⟩ := detect_ok hW i4 (by rw [r4, r3]) n4 (add x (div z.hyst (lit 2)))
  obtain ⟨m6, f6, hy6, s6, c6⟩ := lateReset_ok m5
  have m7 : Mid W { z5.lateReset with prev := add x (div z.hyst (lit 2)) } :=
    ⟨⟨m6.window, m6.wf, m6.cap, m6.le⟩, m6.full, m6.ready, m6.frame, m6.ok⟩
  obtain ⟨i8, s8, hy8, c8⟩ := advance_ok hW m7 f6
  refine ⟨_, ?_, i8, ?_, ?_, ?_⟩
  · simp only [step, updateState, e3, e5, bind, Except.bind]
    rfl
  · rw [hy8]; show z5.lateReset.hyst = _; rw [hy6, hy5, e4', hy3, hy2, hy1]
  · simp only []
    rw [s8]
    show z5.lateReset.state = _
    rw [s6, fr5, s5, e4', fr3, s3, hy3, hy2, hy1, s2]
  · intro ys hreal
    rcases c8 with ⟨c8, v8⟩ | c8
    swap
    · rw [c8]; exact real_nil _ _ _
    rw [c8, v8, s8]
    show Real _ (_ - (((z5.lateReset.frame : Nat) : Int) + 1)) z5.lateReset.state z5.lateReset.edges
    rcases c6 with ⟨c6, -⟩ | c6
    swap
    · rw [c6, reset_edges]; exact real_nil _ _ _
    rw [c6, fr5, s5, ed5, e4', show ((ys.length + 1 : Int) - (z3.frame + 1)) = ys.length - z3.frame by omega]
    have hne : z3.state = true → z3.edges ≠ [] := by
      intro hs he
      have := i3.ok
      rw [hs, he] at this
      exact this
    have key := fun hr => detect_real (frame := z3.frame) (ys := ys) (st := z3.state) (es := z3.edges) z3.prev z3.hyst
      (add x (div z.hyst (lit 2))) hr hne
    apply key
    -- the edges before detection
    have hr1 : Real ys (ys.length - z.capReset.vframe) z.capReset.state z.capReset.edges := by
      rcases c1 with c1 | c1
      · rw [c1]; exact hreal
      · rw [c1, reset_edges]; exact real_nil _ _ _
    have hr2 : Real ys (ys.length - z.capReset.idleReset.vframe) z.capReset.idleReset.state z.capReset.idleReset.edges := by
      rw [idleReset]
      split
      · rw [reset_edges]; exact real_nil _ _ _
      · exact hr1
    by_cases hrd : z.capReset.idleReset.ready = true
    · obtain ⟨hs0, hn0, hfr0⟩ := i2.ready hrd
      have hok := i2.ok
      rw [hs0] at hok hr2
      rw [ed3 hrd, s3, hs0]
      have hfrm := i2.frame
      have hvf : z.capReset.idleReset.vframe = z.capReset.idleReset.frame + (W / 2 : Nat) := by
        simp [vframe, hrd, i2.window]
      have hlt := hW.lt
      have hge := hW.ge
      intro e he
      have := real_back (n := W / 2) hok hr2 (by omega) (by omega) (by omega) e (shiftEdges_subset _ _ e he)
      rw [show (ys.length : Int) - z3.frame = ys.length - z.capReset.idleReset.vframe + (W / 2 : Nat) by
        rw [hvf, fr3]; omega]
      exact this
    · have hrd' : z.capReset.idleReset.ready = false := by simpa using hrd
      have hvf : z.capReset.idleReset.vframe = z.capReset.idleReset.frame := by simp [vframe, hrd']
      rw [eq3 hrd']
      rw [hvf] at hr2
      exact hr2

/-- The invariant holds after every signal; the stored edges are pulses of the output. -/
theorem run_ok' {W : Nat} (hW : WOk W) {z : ZC F} (h : Inv W z) (ys0 : List Bool)
    (hr : Real ys0 (ys0.length - z.vframe) z.state z.edges) (xs : List F) :
    ∃ z' ys, runC ZC.step z xs = .ok (z', ys) ∧ ys.length = xs.length ∧ Inv W z' ∧ z'.hyst = z.hyst ∧
      Real (ys0 ++ ys) ((ys0 ++ ys).length - z'.vframe) z'.state z'.edges := by
  induction xs generalizing z ys0 with
  | nil => exact ⟨z, [], rfl, rfl, h, rfl, by simpa using hr⟩
  | cons x xs ih =>
    obtain ⟨z1, e1, i1, h1, -, hr1⟩ := step_ok hW h x
    obtain ⟨z2, ys, e2, hl, i2, h2, hr2⟩ := ih i1 (ys0 ++ [z1.state]) (by
      have := hr1 ys0 hr
      simpa using this)
    refine ⟨z2, z1.state :: ys, ?_, by simp [hl], i2, by rw [h2, h1], ?_⟩
    · simp only [runC, e1, bind, Except.bind, e2]
      rfl
    · simpa using hr2

theorem run_ok {W : Nat} (hW : WOk W) {z : ZC F} (h : Inv W z) (he : z.edges = []) (xs : List F) :
    ∃ z' ys, runC ZC.step z xs = .ok (z', ys) ∧ ys.length = xs.length ∧ Inv W z' ∧ z'.hyst = z.hyst ∧
      Real ys (ys.length - z'.vframe) z'.state z'.edges := by
  obtain ⟨z', ys, h1, h2, h3, h4, h5⟩ := run_ok' hW h [] (by rw [he]; exact real_nil _ _ _) xs
  exact ⟨z', ys, h1, h2, h3, h4, by simpa using h5⟩

/-- `operator[]`: index 0 is the oldest stored edge. -/
theorem edge_ok {W : Nat} {z : ZC F} (h : Rep W z) (i : Nat) (hi : i < z.numEdges) :
    z.edge i = .ok (z.edges[z.numEdges - 1 - i]'(by rw [h.edges_length]; omega)) := by
  have hle := h.le
  have hlt := cap_lt h.wf
  have e : BitVec.ofNat 64 z.numEdges - 1 - BitVec.ofNat 64 i = BitVec.ofNat 64 (z.numEdges - 1 - i) := by
    apply BitVec.eq_of_toNat_eq
    have h1 : (1 : BitVec 64).toNat = 1 := rfl
    simp only [BitVec.toNat_sub, BitVec.toNat_ofNat, h1]
    rw [Nat.mod_eq_of_lt (by omega : z.numEdges < 2 ^ 64), Nat.mod_eq_of_lt (by omega : i < 2 ^ 64)]
    omega
  rw [edge, e, RingBuf.get_ok_nat h.wf _ (by omega)]
  simp [edges]

theorem closed_mem {W b : Int} {es : List (ZInfo F)} (h : Closed W b es) {e : ZInfo F} (he : e ∈ es) :
    e.leading < e.trailing ∧ e.trailing < b ∧ -W ≤ 2 * e.trailing ∧ e.trailing - e.leading ≤ 2 * W + 1 := by
  induction es generalizing b with
  | nil => cases he
  | cons a es ih =>
    obtain ⟨h1, h2, h3, h4, h5, h6⟩ := h
    rw [List.mem_cons] at he
    rcases he with rfl | he
    · exact ⟨h1, h2, h5, h3⟩
    · obtain ⟨i1, i2, i3⟩ := ih h6 he
      exact ⟨i1, by omega, i3⟩

/-- Newest first: the later entry `j` ends before the earlier entry `i` begins. -/
theorem closed_pair {W b : Int} {es : List (ZInfo F)} (h : Closed W b es) (i j : Nat) (hij : i < j)
    (hj : j < es.length) : (es[j]).trailing < (es[i]).leading := by
  induction es generalizing b i j with
  | nil => simp at hj
  | cons a es ih =>
    obtain ⟨h1, h2, h3, h4, h5, h6⟩ := h
    obtain ⟨j, rfl⟩ : ∃ k, j = k + 1 := ⟨j - 1, by omega⟩
    cases i with
    | zero => exact (closed_mem h6 (List.getElem_mem (by simpa using hj))).2.1
    | succ i => exact ih h6 i j (by omega) (by simpa using hj)

theorem edgesOk_mem {W b : Int} {st : Bool} {es : List (ZInfo F)} (h : EdgesOk W b st es) (hW : 0 ≤ W) {e : ZInfo F}
    (he : e ∈ es) : e.leading < b ∧ -(3 * W) - 1 ≤ e.leading := by
  cases st with
  | false => have := closed_mem h he; omega
  | true =>
    cases es with
    | nil => cases he
    | cons a es =>
      rw [List.mem_cons] at he
      rcases he with rfl | he
      · have := h.1; have := h.2.1; omega
      · have := h.2.1; have := closed_mem h.2.2 he; omega

theorem edgesOk_closed {W b : Int} {st : Bool} {es : List (ZInfo F)} (h : EdgesOk W b st es) (j : Nat)
    (hj : j < es.length) (h0 : st = true → 0 < j) :
    (es[j]).leading < (es[j]).trailing ∧ (es[j]).trailing < b ∧ -W ≤ 2 * (es[j]).trailing := by
  cases st with
  | false => have := closed_mem h (List.getElem_mem hj); omega
  | true =>
    cases es with
    | nil => simp at hj
    | cons a es =>
      have := h0 rfl
      obtain ⟨j, rfl⟩ : ∃ k, j = k + 1 := ⟨j - 1, by omega⟩
      have h3 := closed_mem h.2.2 (List.getElem_mem (by simpa using hj))
      have := h.2.1
      simp only [List.getElem_cons_succ]
      omega

theorem edgesOk_pair {W b : Int} {st : Bool} {es : List (ZInfo F)} (h : EdgesOk W b st es) (i j : Nat) (hij : i < j)
    (hj : j < es.length) :
    (es[j]).leading < (es[j]).trailing ∧ (es[j]).trailing < (es[i]).leading := by
  refine ⟨(edgesOk_closed h j hj (by omega)).1, ?_⟩
  cases st with
  | false => exact closed_pair h i j hij hj
  | true =>
    cases es with
    | nil => simp at hj
    | cons a es =>
      obtain ⟨j, rfl⟩ : ∃ k, j = k + 1 := ⟨j - 1, by omega⟩
      cases i with
      | zero => exact (closed_mem h.2.2 (List.getElem_mem (by simpa using hj))).2.1
      | succ i => exact closed_pair h.2.2 i j (by omega) (by simpa using hj)

theorem real_closed {ys : List Bool} {o : Int} {st : Bool} {es : List (ZInfo F)} (h : Real ys o st es) (j : Nat)
    (hj : j < es.length) (h0 : st = true → 0 < j) : RealC ys o es[j] := by
  cases st with
  | false => exact h _ (List.getElem_mem hj)
  | true =>
    cases es with
    | nil => simp at hj
    | cons a es =>
      have := h0 rfl
      obtain ⟨j, rfl⟩ : ∃ k, j = k + 1 := ⟨j - 1, by omega⟩
      exact h.2 _ (List.getElem_mem (by simpa using hj))

theorem real_open {ys : List Bool} {o : Int} {es : List (ZInfo F)} (h : Real ys o true es)
    (hj : 0 < es.length) :
    ∀ t : Int, (es[0]).leading ≤ t → o + t < ys.length → atT ys (o + t) = some true := by
  cases es with
  | nil => simp at hj
  | cons a es => exact h.1

end ZC
end Verif
