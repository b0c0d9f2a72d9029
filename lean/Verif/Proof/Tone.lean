import Verif.Proof.ZeroCrossing
import Mathlib.Tactic.Ring
import Mathlib.Tactic.Linarith
/-! `zero_crossing` on a periodic signal with one pulse per period: the stored edges are exactly the pulses of the
signal that end inside the window. -/
namespace Verif
open FloatOps
variable {F : Type} [FloatOps F]
attribute [local irreducible] i32 u64

/-- Specification: the (offset) samples `y 0, y 1, …` are periodic with period `N`, and each period consists of a gap
of `r` samples not above zero, a pulse of `w` samples that begins with a positive sample and does not fall below the
hysteresis level `hy`, and a second gap, of samples not above zero, that begins with a sample below the hysteresis
level. -/
structure Tone (y : Nat → F) (hy : F) (N r w : Nat) : Prop where
  per : ∀ t, y (t + N) = y t
  r1 : 1 ≤ r
  w1 : 1 ≤ w
  rw : r + w < N
  up : lt (lit 0) (y r) = true
  high : ∀ i, r ≤ i → i < r + w → lt (lit 0) (y i) = true ∨ lt (y i) hy = false
  down : lt (y (r + w)) hy = true
  low : ∀ i, i < N → i < r ∨ r + w ≤ i → lt (lit 0) (y i) = false

theorem Tone.at {y : Nat → F} {hy : F} {N r w : Nat} (h : Tone y hy N r w) (k q : Nat) : y (k * N + q) = y q := by
  induction k with
  | zero => simp
  | succ k ih => rw [show (k + 1) * N + q = k * N + q + N by ring, h.per, ih]

/-- The running peak of the pulse, `i` samples after its first one. -/
def pk (y : Nat → F) (r : Nat) : Nat → F
  | 0 => y r
  | i + 1 => if lt (lit 0) (y (r + 1 + i)) then FloatOps.max (y (r + 1 + i)) (pk y r i) else pk y r i

section
variable (y : Nat → F) (N r w : Nat)

/-- Edge `e` (frame 0 being at time `b`) is the complete pulse of period `c`. -/
def GoodE (b : Int) (c : Nat) (e : ZInfo F) : Prop :=
  e.leading = r + c * N - b ∧ e.trailing = r + w + c * N - b ∧ e.crossing = (y (r - 1), y r) ∧ e.peak = pk y r (w - 1)

/-- Edge `e` is the pulse of period `c`, `i` samples after its first one. -/
def OpenE (b : Int) (c i : Nat) (e : ZInfo F) : Prop :=
  e.leading = r + c * N - b ∧ e.crossing = (y (r - 1), y r) ∧ e.peak = pk y r i

/-- The list holds the pulses of the periods `c - 1`, `c - 2`, …. -/
def Goods (b : Int) : Nat → List (ZInfo F) → Prop
  | _, [] => True
  | 0, _ :: _ => False
  | c + 1, e :: es => GoodE y N r w b c e ∧ Goods b c es

/-- Inside the pulse after `q` samples of the period. -/
def InP (q : Nat) : Prop := r < q ∧ q ≤ r + w
instance (q : Nat) : Decidable (InP r w q) := inferInstanceAs (Decidable (_ ∧ _))

/-- Pulses completed after `q` samples of period `k`. -/
def cl (k q : Nat) : Nat := if r + w < q then k + 1 else k

/-- The stored edges `es`, `q` samples into period `k`, frame 0 being at time `b`: the open pulse, the completed pulses
not before `m`, and older edges `js`. -/
structure EI (k q : Nat) (b : Int) (m : Nat) (hd gs js es : List (ZInfo F)) : Prop where
  eq : es = hd ++ gs ++ js
  opn : InP r w q → ∃ e, hd = [e] ∧ OpenE y N r b k (q - r - 1) e
  nop : ¬ InP r w q → hd = []
  good : Goods y N r w b (cl r w k q) gs
  len : cl r w k q = m + gs.length
  stop : ∀ j, j < m → (r + w + j * N : Int) < b
  keep : gs ≠ [] → b ≤ r + w + m * N
  junk : ∀ e ∈ js, b + e.trailing ≤ 0
end

section
variable {y : Nat → F} {N r w : Nat}

theorem goods_append {b : Int} {c : Nat} {l1 l2 : List (ZInfo F)} (h : Goods y N r w b c (l1 ++ l2)) : Goods y N r w b c l1 := by
  induction l1 generalizing c with
  | nil => cases c <;> trivial
  | cons e es ih =>
    cases c with
    | zero => exact h
    | succ c => exact ⟨h.1, ih h.2⟩

theorem goods_get {b : Int} {c : Nat} {l : List (ZInfo F)} (h : Goods y N r w b c l) (i : Nat) (hi : i < l.length) :
    i < c ∧ GoodE y N r w b (c - 1 - i) l[i] := by
  induction l generalizing c i with
  | nil => simp at hi
  | cons e es ih =>
    cases c with
    | zero => exact h.elim
    | succ c =>
      cases i with
      | zero => exact ⟨by omega, h.1⟩
      | succ i =>
        obtain ⟨h1, h2⟩ := ih h.2 i (by simpa using hi)
        exact ⟨by omega, by rw [show c + 1 - 1 - (i + 1) = c - 1 - i by omega]; exact h2⟩

theorem goods_back {W b B : Int} {n c : Nat} {es : List (ZInfo F)} (h : Goods y N r w b c es) (hc : Closed W B es)
    (hW : 2 * W < 2 ^ 29) (hb : B ≤ 2 ^ 30) (hn : 2 * (n : Int) ≤ W) :
    Goods y N r w (b + n) c (es.map (ZInfo.back n)) := by
  induction es generalizing c B with
  | nil => cases c <;> trivial
  | cons e es ih =>
    cases c with
    | zero => exact h
    | succ c =>
      obtain ⟨h1, h2, h3, h4, h5, h6⟩ := hc
      obtain ⟨⟨g1, g2, g3, g4⟩, g5⟩ := h
      have i1 : i32 (e.leading - n) = e.leading - n := i32_id (by omega) (by omega)
      have i2 : i32 (e.trailing - n) = e.trailing - n := i32_id (by omega) (by omega)
      refine ⟨⟨?_, ?_, g3, g4⟩, ih g5 h6 (by omega)⟩
      · show i32 (e.leading - n) = _; rw [i1, g1]; omega
      · show i32 (e.trailing - n) = _; rw [i2, g2]; omega

omit [FloatOps F] in
theorem junk_back {W b B : Int} {n : Nat} {es : List (ZInfo F)} (h : ∀ e ∈ es, b + e.trailing ≤ 0) (hc : Closed W B es)
    (hW : 2 * W < 2 ^ 29) (hb : B ≤ 2 ^ 30) (hn : 2 * (n : Int) ≤ W) :
    ∀ e ∈ es.map (ZInfo.back n), b + n + e.trailing ≤ 0 := by
  induction es generalizing B with
  | nil => intro e he; simp at he
  | cons e es ih =>
    obtain ⟨h1, h2, h3, h4, h5, h6⟩ := hc
    have i2 : i32 (e.trailing - n) = e.trailing - n := i32_id (by omega) (by omega)
    intro x hx
    rw [List.map_cons, List.mem_cons] at hx
    rcases hx with rfl | hx
    · have := h e (by simp)
      simp only [ZInfo.back, i2]; omega
    · exact ih (fun e he => h e (by simp [he])) h6 (by omega) x hx

omit [FloatOps F] in
theorem closed_append {W b : Int} {l1 l2 : List (ZInfo F)} (h : Closed W b (l1 ++ l2)) : Closed W b l1 ∧ Closed W b l2 := by
  induction l1 generalizing b with
  | nil => exact ⟨trivial, h⟩
  | cons e es ih =>
    obtain ⟨h1, h2, h3, h4, h5, h6⟩ := h
    obtain ⟨i1, i2⟩ := ih h6
    refine ⟨⟨h1, h2, h3, fun hne => h4 (by simp [hne]), h5, i1⟩, i2.mono (by omega)⟩

/-- A prefix of the completed pulses kept by `shift`. -/
theorem goods_takeWhile {b : Int} {c m : Nat} {l : List (ZInfo F)} (h : Goods y N r w b c l) (hl : c = m + l.length)
    (hm : ∀ j, j < m → (r + w + j * N : Int) < b) :
    ∃ m' : Nat, m ≤ m' ∧ c = m' + (l.takeWhile fun e => decide (0 ≤ e.trailing)).length ∧ (∀ j, j < m' → (r + w + j * N : Int) < b) ∧
      (l.takeWhile (fun e => decide (0 ≤ e.trailing)) ≠ [] → b ≤ r + w + m' * N) ∧
      ((l.takeWhile fun e => decide (0 ≤ e.trailing)) = l ∨ ¬ ∀ e ∈ l, 0 ≤ e.trailing) := by
  induction l generalizing c with
  | nil => exact ⟨m, le_refl _, by simpa using hl, hm, by simp, Or.inl rfl⟩
  | cons e es ih =>
    cases c with
    | zero => exact h.elim
    | succ c =>
      obtain ⟨⟨g1, g2, g3, g4⟩, g5⟩ := h
      rw [List.takeWhile_cons]
      by_cases ht : 0 ≤ e.trailing
      · rw [if_pos (by simpa using ht)]
        obtain ⟨m', a0, a1, a2, a3, a4⟩ := ih g5 (by simp at hl; omega)
        refine ⟨m', a0, by simp; omega, a2, fun _ => ?_, ?_⟩
        · by_cases hne : es.takeWhile (fun e => decide (0 ≤ e.trailing)) = []
          · rw [hne] at a1
            simp at a1
            rw [← a1]; omega
          · exact a3 hne
        · rcases a4 with a4 | a4
          · left; rw [a4]
          · right; intro hh; exact a4 fun x hx => hh x (by simp [hx])
      · rw [if_neg (by simpa using ht)]
        refine ⟨c + 1, by omega, by simp, ?_, by simp, Or.inr fun hh => ht (hh e (by simp))⟩
        intro j hj
        have : j ≤ c := by omega
        have h2 : (j * N : Int) ≤ c * N := by exact_mod_cast Nat.mul_le_mul_right N this
        omega

theorem ei_reset {k q : Nat} (h : ¬ InP r w q) (hrw : r + w < N) :
    EI y N r w k q (k * N + q) (cl r w k q) [] [] [] [] := by
  refine ⟨rfl, fun hh => absurd hh h, fun _ => rfl, by cases cl r w k q <;> trivial, by simp, ?_, by simp, by simp⟩
  intro j hj
  rw [cl] at hj
  split at hj
  · rename_i hc
    have : (j * N : Int) ≤ k * N := by exact_mod_cast Nat.mul_le_mul_right N (by omega : j ≤ k)
    omega
  · have : (j * N + N : Int) ≤ k * N := by
      have := Nat.mul_le_mul_right N (by omega : j + 1 ≤ k)
      rw [Nat.add_mul, Nat.one_mul] at this
      exact_mod_cast this
    omega

theorem ei_shift {W B : Int} {n k q : Nat} {b : Int} {m : Nat} {hd gs js es : List (ZInfo F)} (h : EI y N r w k q b m hd gs js es)
    (hp : ¬ InP r w q) (hc : Closed W B es) (hW : 2 * W < 2 ^ 29) (hb : B ≤ 2 ^ 30) (hn : 2 * (n : Int) ≤ W)
    (hgs : gs ≠ []) (hlast : b + n ≤ r + w + ((cl r w k q : Nat) - 1 : Int) * N) :
    ∃ m' gs' js', EI y N r w k q (b + n) m' [] gs' js' (shiftEdges n es) ∧ gs' ≠ [] ∧ js'.length ≤ js.length ∧ (0 < b + n → js' = []) ∧
      ∀ e ∈ js', 0 ≤ e.trailing := by
  obtain ⟨heq, -, hnop, hgood, hlen, hstop, hkeep, hjunk⟩ := h
  have hhd := hnop hp
  subst hhd
  rw [List.nil_append] at heq
  subst heq
  match gs, hgs with
  | e :: gs, _ =>
    match hcl : cl r w k q, hgood with
    | 0, hgood => exact hgood.elim
    | c + 1, ⟨hg1, hg2⟩ =>
      rw [hcl] at hlen hlast
      obtain ⟨h1, h2, h3, h4, h5, h6⟩ := hc
      obtain ⟨c1, c2⟩ := closed_append h6
      have hgb := goods_back (n := n) (show Goods y N r w b (c + 1) (e :: gs) from ⟨hg1, hg2⟩)
        (show Closed W B (e :: gs) from ⟨h1, h2, h3, fun hh => h4 (by simp [hh]), h5, c1⟩) hW hb hn
      rw [List.map_cons] at hgb
      have hjb := junk_back (n := n) hjunk c2 hW (by omega) hn
      obtain ⟨m', a0, a1, a2, a3, a4⟩ := goods_takeWhile (m := m) hgb.2 (by simp at hlen ⊢; omega) (fun j hj => by
        have := hstop j hj; omega)
      have hs : shiftEdges n (e :: gs ++ js) = e.back n :: ((gs.map (ZInfo.back n)) ++ js.map (ZInfo.back n)).takeWhile fun e => decide (0 ≤ e.trailing) := by
        rw [List.cons_append, shiftEdges, List.map_append]
      rw [hs]
      have hnew : ∀ js' : List (ZInfo F), (∀ e ∈ js', b + n + e.trailing ≤ 0) → ∀ gs' : List (ZInfo F),
          Goods y N r w (b + n) c gs' → c = m' + gs'.length → (gs' ≠ [] → b + n ≤ r + w + m' * N) →
          EI y N r w k q (b + n) m' [] (e.back n :: gs') js' (e.back n :: (gs' ++ js')) := by
        intro js' hj gs' hg hl hk
        refine ⟨by simp, fun hh => absurd hh hp, fun _ => rfl, by rw [hcl]; exact ⟨hgb.1, hg⟩, by rw [hcl]; simp; omega, a2, fun _ => ?_, hj⟩
        by_cases hne : gs' = []
        · rw [hne] at hl
          simp at hl
          rw [← hl]
          push_cast at hlast
          rw [show (c : Int) + 1 - 1 = c by omega] at hlast
          exact hlast
        · exact hk hne
      rcases Classical.em (∀ x ∈ gs.map (ZInfo.back n), 0 ≤ x.trailing) with hall | hall
      · have htw : ((gs.map (ZInfo.back n)) ++ js.map (ZInfo.back n)).takeWhile (fun e => decide (0 ≤ e.trailing)) =
            gs.map (ZInfo.back n) ++ (js.map (ZInfo.back n)).takeWhile fun e => decide (0 ≤ e.trailing) := by
          rw [List.takeWhile_append_of_pos]
          intro x hx; simpa using hall x hx
        have hself : (gs.map (ZInfo.back n)).takeWhile (fun e => decide (0 ≤ e.trailing)) = gs.map (ZInfo.back n) := by
          rcases a4 with a4 | a4
          · exact a4
          · exact absurd hall a4
        rw [hself] at a1 a3
        have hjm : ∀ x ∈ (js.map (ZInfo.back n)).takeWhile (fun e => decide (0 ≤ e.trailing)), b + n + x.trailing ≤ 0 ∧ 0 ≤ x.trailing := by
          intro x hx
          exact ⟨hjb x ((List.takeWhile_prefix _).subset hx), by simpa using List.mem_takeWhile_imp hx⟩
        refine ⟨m', _, _, by rw [htw]; exact hnew _ (fun x hx => (hjm x hx).1) _ hgb.2 a1 a3, by simp, ?_, ?_, fun x hx => (hjm x hx).2⟩
        · have := List.IsPrefix.length_le (List.takeWhile_prefix (l := js.map (ZInfo.back n)) (fun e => decide (0 ≤ e.trailing)))
          rwa [List.length_map] at this
        · intro hpos
          by_contra hne
          obtain ⟨x, hx⟩ := List.exists_mem_of_ne_nil _ hne
          have := hjm x hx
          omega
      · have htw : ((gs.map (ZInfo.back n)) ++ js.map (ZInfo.back n)).takeWhile (fun e => decide (0 ≤ e.trailing)) =
            (gs.map (ZInfo.back n)).takeWhile (fun e => decide (0 ≤ e.trailing)) ++ [] := by
          rw [List.takeWhile_append, if_neg, List.append_nil]
          intro hh
          apply hall
          intro x hx
          have : (gs.map (ZInfo.back n)).takeWhile (fun e => decide (0 ≤ e.trailing)) = gs.map (ZInfo.back n) :=
            (List.takeWhile_prefix _).eq_of_length hh
          rw [← this] at hx
          simpa using List.mem_takeWhile_imp hx
        have hg' : Goods y N r w (b + n) c ((gs.map (ZInfo.back n)).takeWhile fun e => decide (0 ≤ e.trailing)) := by
          apply goods_append (l2 := (gs.map (ZInfo.back n)).dropWhile fun e => decide (0 ≤ e.trailing))
          rw [List.takeWhile_append_dropWhile]; exact hgb.2
        exact ⟨m', _, [], by rw [htw]; exact hnew [] (by simp) _ hg' a1 a3, by simp, by simp, fun _ => rfl, by simp⟩

/-- The next position. -/
def nextK (N k q : Nat) : Nat := if q + 1 = N then k + 1 else k
def nextQ (N q : Nat) : Nat := if q + 1 = N then 0 else q + 1

theorem next_time (N k q : Nat) : nextK N k q * N + nextQ N q = k * N + q + 1 := by
  rw [nextK, nextQ]
  split
  · rw [Nat.add_mul]; omega
  · omega

theorem next_lt {N q : Nat} (h : q < N) : nextQ N q < N := by rw [nextQ]; split <;> omega

theorem cl_next {k q : Nat} (h : r + w < N) :
    cl r w (nextK N k q) (nextQ N q) = if q = r + w then k + 1 else cl r w k q := by
  rw [cl, cl, nextK, nextQ]
  split_ifs <;> omega

theorem inP_next {q : Nat} (h : r + w < N) : InP r w (nextQ N q) ↔ r ≤ q ∧ q < r + w := by
  rw [InP, nextQ]
  split <;> omega

/-- The comparator on the next sample. -/
theorem state_next {hy : F} (h : Tone y hy N r w) {q : Nat} (hq : q < N) :
    (if lt (lit 0) (y q) then true else if decide (InP r w q) && lt (y q) hy then false else decide (InP r w q)) =
      decide (InP r w (nextQ N q)) := by
  have hrw := h.rw
  have hw := h.w1
  have hn := inP_next (N := N) (r := r) (w := w) (q := q) hrw
  by_cases h1 : q < r
  · rw [h.low q hq (Or.inl h1)]
    have a : ¬ InP r w q := by rw [InP]; omega
    have b : ¬ InP r w (nextQ N q) := by rw [hn]; omega
    simp [a, b]
  · by_cases h2 : q < r + w
    · have b : InP r w (nextQ N q) := by rw [hn]; omega
      by_cases h3 : q = r
      · rw [h3, h.up]; rw [h3] at b; simp [b]
      · have a : InP r w q := by rw [InP]; omega
        rcases h.high q (by omega) h2 with h4 | h4
        · rw [h4]; simp [b]
        · rw [h4]; simp [a, b]
    · have b : ¬ InP r w (nextQ N q) := by rw [hn]; omega
      rw [h.low q hq (Or.inr (by omega))]
      by_cases h3 : q = r + w
      · have a : InP r w q := by rw [InP]; omega
        rw [h3, h.down]; rw [h3] at b; simp [b]
      · have a : ¬ InP r w q := by rw [InP]; omega
        simp [a, b]

theorem ei_detect {hy : F} (h : Tone y hy N r w) {k q : Nat} (hq : q < N) {b : Int} {m : Nat} {hd gs js es : List (ZInfo F)}
    (e : EI y N r w k q b m hd gs js es) {frame : Nat} (hf : (frame : Int) = k * N + q - b) {prev : F}
    (hp : 1 ≤ q → prev = y (q - 1)) (hb : b ≤ k * N + q) :
    ∃ hd' gs', EI y N r w (nextK N k q) (nextQ N q) b m hd' gs' js (ZC.detectEdges prev frame hy (y q) (decide (InP r w q)) es) := by
  have hrw := h.rw
  have hw := h.w1
  have hr1 := h.r1
  have hn := inP_next (N := N) (r := r) (w := w) (q := q) hrw
  have hcl := cl_next (N := N) (r := r) (w := w) (k := k) (q := q) hrw
  obtain ⟨heq, hopn, hnop, hgood, hlen, hstop, hkeep, hjunk⟩ := e
  by_cases a : InP r w q
  · obtain ⟨e0, rfl, o1, o2, o3⟩ := hopn a
    have hcl0 : cl r w k q = k := by rw [cl, if_neg]; exact Nat.not_lt.2 a.2
    rw [heq]
    simp only [a, decide_true, List.cons_append, List.nil_append, ZC.detectEdges]
    by_cases h3 : q = r + w
    · have b' : ¬ InP r w (nextQ N q) := by rw [hn]; omega
      have hlo := h.low q hq (Or.inr (by omega))
      have hdn : lt (y q) hy = true := by rw [h3]; exact h.down
      rw [hlo, if_neg (by simp), if_pos hdn]
      rw [if_pos h3] at hcl
      rw [hcl0] at hlen hgood
      refine ⟨[], { e0 with trailing := frame } :: gs, ⟨by simp, fun hh => absurd hh b', fun _ => rfl, ?_, ?_, hstop, ?_, hjunk⟩⟩
      · rw [hcl]
        refine ⟨⟨o1, ?_, o2, ?_⟩, hgood⟩
        · show (frame : Int) = _; rw [hf, h3]; push_cast; ring
        · show e0.peak = _; rw [o3, h3]; congr 1; omega
      · rw [hcl]; simp; omega
      · intro _
        by_cases hne : gs = []
        · rw [hne] at hlen
          simp at hlen
          have hq3 : (q : Int) = r + w := by exact_mod_cast h3
          rw [← hlen]
          omega
        · exact hkeep hne
    · have b' : InP r w (nextQ N q) := by rw [hn, InP] at *; omega
      have hk : nextK N k q = k := by rw [nextK, if_neg]; rw [InP] at a; omega
      have hq' : nextQ N q = q + 1 := by rw [nextQ, if_neg]; rw [InP] at a; omega
      rw [if_neg h3, hcl0] at hcl
      rw [hcl0] at hlen hgood
      have hstep : pk y r (q + 1 - r - 1) = if lt (lit 0) (y q) then FloatOps.max (y q) (pk y r (q - r - 1)) else pk y r (q - r - 1) := by
        have hq2 : q + 1 - r - 1 = (q - r - 1) + 1 := by rw [InP] at a; omega
        have hq3 : r + 1 + (q - r - 1) = q := by rw [InP] at a; omega
        rw [hq2, pk, hq3]
      by_cases hs : lt (lit 0) (y q) = true
      · rw [if_pos hs]
        refine ⟨[ZC.updatePeak e0 (y q) frame], gs, ⟨by simp, fun _ => ⟨_, rfl, ?_⟩, fun hh => absurd b' hh, by rw [hcl]; exact hgood, by rw [hcl]; exact hlen, hstop, hkeep, hjunk⟩⟩
        rw [hk, hq', OpenE, hstep, if_pos hs, ← o3]
        exact ⟨o1, o2, rfl⟩
      · rw [if_neg hs]
        have : lt (y q) hy = false := by
          rcases h.high q (by rw [InP] at a; omega) (by rw [InP] at a; omega) with h4 | h4
          · exact absurd h4 hs
          · exact h4
        rw [this, if_neg (by simp)]
        refine ⟨[e0], gs, ⟨by simp, fun _ => ⟨_, rfl, ?_⟩, fun hh => absurd b' hh, by rw [hcl]; exact hgood, by rw [hcl]; exact hlen, hstop, hkeep, hjunk⟩⟩
        rw [hk, hq', OpenE, hstep, if_neg hs, ← o3]
        exact ⟨o1, o2, rfl⟩
  · have := hnop a
    subst this
    rw [heq]
    simp only [a, decide_false, List.nil_append, ZC.detectEdges]
    have h3 : q ≠ r + w := by rw [InP] at a; omega
    rw [if_neg h3] at hcl
    by_cases h4 : q = r
    · have b' : InP r w (nextQ N q) := by rw [hn]; omega
      have hk : nextK N k q = k := by rw [nextK, if_neg]; omega
      have hq' : nextQ N q = q + 1 := by rw [nextQ, if_neg]; omega
      have hup : lt (lit 0) (y q) = true := by rw [h4]; exact h.up
      rw [if_pos hup]
      refine ⟨[_], gs, ⟨rfl, fun _ => ⟨_, rfl, ?_⟩, fun hh => ?_, ?_, ?_, hstop, hkeep, hjunk⟩⟩
      · rw [hk, hq', OpenE]
        refine ⟨?_, ?_, ?_⟩
        · show (frame : Int) = _; rw [hf, h4]; push_cast; ring
        · show (prev, y q) = _; rw [hp (by omega), h4]
        · show y q = _; rw [show q + 1 - r - 1 = 0 by omega, pk, h4]
      · exact absurd b' hh
      · rw [hcl]; exact hgood
      · rw [hcl]; exact hlen
    · have b' : ¬ InP r w (nextQ N q) := by rw [hn]; rw [InP] at a; omega
      have hlo := h.low q hq (by rw [InP] at a; omega)
      rw [hlo, if_neg (by simp)]
      exact ⟨[], gs, ⟨by simp, fun hh => absurd hh b', fun _ => rfl, by rw [hcl]; exact hgood, by rw [hcl]; exact hlen, hstop, hkeep, hjunk⟩⟩

end
end Verif
