import Verif.Model.Monitor
import Verif.Props.Midi
import Mathlib.Tactic.Linarith
/-!
# The MIDI monitor prints every channel message, in order, one line each, and its text can be read back (C105)
-/
namespace Verif
namespace Midi
namespace Monitor

theorem ok_bind {α β} (v : α) (f : α → C β) : ((Except.ok v : C α) >>= f) = f v := rfl

/-! ### Reading text back -/

/-- The part of a text up to the first character violating `p` is determined by the text. -/
theorem sep {α : Type} {p : α → Prop} : ∀ {u v : List α} {c d : α} {r s : List α}, (∀ x ∈ u, p x) → (∀ x ∈ v, p x) → ¬ p c → ¬ p d →
    u ++ c :: r = v ++ d :: s → u = v ∧ c = d ∧ r = s := by
  intro u
  induction u with
  | nil =>
    intro v c d r s _ hv hc _ h
    cases v with
    | nil => simp only [List.nil_append, List.cons.injEq] at h; exact ⟨rfl, h⟩
    | cons x v =>
      simp only [List.nil_append, List.cons_append, List.cons.injEq] at h
      exact absurd (h.1 ▸ hv x List.mem_cons_self) hc
  | cons y u ih =>
    intro v c d r s hu hv hc hd h
    cases v with
    | nil =>
      simp only [List.nil_append, List.cons_append, List.cons.injEq] at h
      exact absurd (h.1 ▸ hu y List.mem_cons_self) hd
    | cons x v =>
      simp only [List.cons_append, List.cons.injEq] at h
      obtain ⟨h1, h2⟩ := h
      obtain ⟨a, b⟩ := ih (fun z hz => hu z (List.mem_cons_of_mem _ hz)) (fun z hz => hv z (List.mem_cons_of_mem _ hz)) hc hd h2
      exact ⟨by rw [h1, a], b⟩

theorem int_inj {a b : Nat} (h : int a = int b) : a = b := by
  have : Nat.ofDigitChars 10 (int a) 0 = Nat.ofDigitChars 10 (int b) 0 := by rw [h]
  rwa [int, int, Nat.ofDigitChars_ten_toDigits, Nat.ofDigitChars_ten_toDigits] at this

theorem int_digit {a : Nat} : ∀ x ∈ int a, x.isDigit = true := fun _ hx =>
  Nat.isDigit_of_mem_toDigits (by norm_num) (by norm_num) hx

/-- A number followed by something that is not a digit can be read back. -/
theorem int_sep {a b : Nat} {c d : Char} {r s : List Char} (hc : c.isDigit = false) (hd : d.isDigit = false)
    (h : int a ++ c :: r = int b ++ d :: s) : a = b ∧ r = s := by
  obtain ⟨h1, -, h2⟩ := sep (p := fun x => x.isDigit = true) int_digit int_digit (by simp [hc]) (by simp [hd]) h
  exact ⟨int_inj h1, h2⟩

theorem int_sep_lit {a b : Nat} (u : List Char) (hu : (u.headD '0').isDigit = false) {r s : List Char}
    (h : int a ++ (u ++ r) = int b ++ (u ++ s)) : a = b ∧ r = s := by
  cases u with
  | nil => exact absurd hu (by decide)
  | cons c t =>
    obtain ⟨h1, h2⟩ := int_sep (c := c) (d := c) hu hu h
    exact ⟨h1, List.append_cancel_left h2⟩

/-! ### The lines -/

/-- The kinds of message that are about a channel. -/
def isChan (k : Kind) : Bool :=
  match k with
  | .noteOff | .noteOn | .polyAftertouch | .controlChange | .programChange | .channelAftertouch | .pitchBend => true
  | _ => false

/-- The first ten characters of the line. -/
def tag (k : Kind) : List Char :=
  match k with
  | .noteOff => "Note Off {".toList
  | .noteOn => "Note On  {".toList
  | .polyAftertouch => "Polyphonic".toList
  | .controlChange => "Control Ch".toList
  | .programChange => "Program Ch".toList
  | .channelAftertouch => "Channel Af".toList
  | .pitchBend => "Pitch Bend".toList
  | _ => []

theorem tag_inj (k l : Kind) (hk : isChan k = true) (hl : isChan l = true) (h : tag k = tag l) : k = l := by
  revert hk hl h
  cases k <;> cases l <;> decide +kernel

theorem handle_tag (m : Msg) (h : isChan m.kind = true) (r : List Char) : (handle m ++ r).take 10 = tag m.kind := by
  obtain ⟨k, d⟩ := m
  have h : isChan k = true := h
  cases k <;> first | rfl | (exfalso; revert h; decide)

theorem count_int {a : Nat} : (int a).count '\n' = 0 := by
  rw [List.count_eq_zero]
  intro h
  exact absurd (int_digit _ h) (by decide)

/-- Every channel message is one line. -/
theorem handle_lines (m : Msg) : (handle m).count '\n' = if isChan m.kind then 1 else 0 := by
  obtain ⟨k, d⟩ := m
  cases k <;> simp only [handle, List.count_append, count_int] <;> rfl

/-- What a line says: the channel and the values. -/
def fields (m : Msg) : List Nat :=
  match m.kind with
  | .programChange | .channelAftertouch => [m.channel.toNat, m.data1.toNat]
  | .pitchBend => [m.channel.toNat, m.value14.toNat]
  | _ => [m.channel.toNat, m.data1.toNat, m.data2.toNat]

theorem shape3 (p q u v w z : List Char) (hu : (u.headD '0').isDigit = false) (hv : (v.headD '0').isDigit = false)
    (hw : (w.headD '0').isDigit = false) {a b c a' b' c' : Nat} {r r' : List Char}
    (e : p ++ q ++ int a ++ u ++ int b ++ v ++ int c ++ w ++ z ++ r = p ++ q ++ int a' ++ u ++ int b' ++ v ++ int c' ++ w ++ z ++ r') :
    [a, b, c] = [a', b', c'] ∧ r = r' := by
  simp only [List.append_assoc] at e
  have e := List.append_cancel_left (List.append_cancel_left e)
  obtain ⟨e1, e⟩ := int_sep_lit _ hu e
  obtain ⟨e2, e⟩ := int_sep_lit _ hv e
  obtain ⟨e3, e⟩ := int_sep_lit _ hw e
  exact ⟨by rw [e1, e2, e3], List.append_cancel_left e⟩

theorem shape2 (p q u w z : List Char) (hu : (u.headD '0').isDigit = false)
    (hw : (w.headD '0').isDigit = false) {a b a' b' : Nat} {r r' : List Char}
    (e : p ++ q ++ int a ++ u ++ int b ++ w ++ z ++ r = p ++ q ++ int a' ++ u ++ int b' ++ w ++ z ++ r') :
    [a, b] = [a', b'] ∧ r = r' := by
  simp only [List.append_assoc] at e
  have e := List.append_cancel_left (List.append_cancel_left e)
  obtain ⟨e1, e⟩ := int_sep_lit _ hu e
  obtain ⟨e2, e⟩ := int_sep_lit _ hw e
  exact ⟨by rw [e1, e2], List.append_cancel_left e⟩

/-- A line determines its message's kind and fields, and where the next line begins. -/
theorem handle_inj (m m' : Msg) (h : isChan m.kind = true) (h' : isChan m'.kind = true) (r r' : List Char)
    (e : handle m ++ r = handle m' ++ r') : m.kind = m'.kind ∧ fields m = fields m' ∧ r = r' := by
  have ek : m.kind = m'.kind := tag_inj _ _ h h' (by rw [← handle_tag m h r, ← handle_tag m' h' r', e])
  refine ⟨ek, ?_⟩
  obtain ⟨k, d⟩ := m
  obtain ⟨k', d'⟩ := m'
  have ek : k = k' := ek
  subst ek
  have h : isChan k = true := h
  clear h'
  cases k
  case noteOff => exact shape3 _ _ _ _ _ _ (by decide +kernel) (by decide +kernel) (by decide +kernel) e
  case noteOn => exact shape3 _ _ _ _ _ _ (by decide +kernel) (by decide +kernel) (by decide +kernel) e
  case polyAftertouch => exact shape3 _ _ _ _ _ _ (by decide +kernel) (by decide +kernel) (by decide +kernel) e
  case controlChange => exact shape3 _ _ _ _ _ _ (by decide +kernel) (by decide +kernel) (by decide +kernel) e
  case programChange => exact shape2 _ _ _ _ _ (by decide +kernel) (by decide +kernel) e
  case channelAftertouch => exact shape2 _ _ _ _ _ (by decide +kernel) (by decide +kernel) e
  case pitchBend => exact shape2 _ _ _ _ _ (by decide +kernel) (by decide +kernel) e
  all_goals exact absurd h (by decide)

/-! ### Messages on the wire -/

/-- The channel message in the packet with status byte `s` and data bytes `b1`, `b2` according to the MIDI table, if there is one. -/
def chanMsg (s b1 b2 : BitVec 8) : Option Msg := if s.toNat < 0xf0 then specMsg s b1 b2 else none

/-- The upper four bits of the status byte. -/
def hiOf (k : Kind) : Nat :=
  match k with
  | .noteOff => 8 | .noteOn => 9 | .polyAftertouch => 10 | .controlChange => 11 | .programChange => 12 | .channelAftertouch => 13
  | _ => 14

theorem specKind_chan : ∀ s : BitVec 8, s.toNat < 0xf0 → ((specKind s).map fun p => (isChan p.1 = true ∧
    p.2 = (if p.1 = .programChange ∨ p.1 = .channelAftertouch then 1 else 2) ∧ s.toNat / 16 = hiOf p.1 : Bool)).getD true = true := by
  decide +kernel

theorem and15 (s : BitVec 8) : (s &&& 0x0f#8).toNat = s.toNat % 16 := by
  rw [BitVec.toNat_and]
  exact Nat.and_two_pow_sub_one_eq_mod s.toNat 4

/-- Messages with the same line are the same message. -/
theorem chanMsg_inj (s b1 b2 s' b1' b2' : BitVec 8) (m m' : Msg) (h : chanMsg s b1 b2 = some m) (h' : chanMsg s' b1' b2' = some m')
    (v : m.kind = .pitchBend → b1.toNat < 128 ∧ b2.toNat < 128) (v' : m'.kind = .pitchBend → b1'.toNat < 128 ∧ b2'.toNat < 128)
    (ek : m.kind = m'.kind) (ef : fields m = fields m') : m = m' := by
  unfold chanMsg specMsg at h h'
  split_ifs at h with hs
  split_ifs at h' with hs'
  cases q : specKind s with
  | none => rw [q] at h; cases h
  | some p =>
    cases q' : specKind s' with
    | none => rw [q'] at h'; cases h'
    | some p' =>
      obtain ⟨k, n⟩ := p
      obtain ⟨k', n'⟩ := p'
      rw [q, Option.map_some] at h
      rw [q', Option.map_some] at h'
      injection h with h
      injection h' with h'
      have c := specKind_chan s hs
      have c' := specKind_chan s' hs'
      rw [q, Option.map_some, Option.getD_some, decide_eq_true_eq] at c
      rw [q', Option.map_some, Option.getD_some, decide_eq_true_eq] at c'
      obtain ⟨c1, c2, c3⟩ := c
      obtain ⟨-, d2, d3⟩ := c'
      simp only [] at c1 c2 c3 d2 d3 h h'
      subst h h'
      simp only [] at ek v v'
      subst ek
      have en : n = n' := by rw [c2, d2]
      subst en
      clear d2 q q'
      have stat : (s &&& 0x0f#8).toNat = (s' &&& 0x0f#8).toNat → s = s' := by
        intro w
        rw [and15, and15] at w
        apply BitVec.eq_of_toNat_eq
        omega
      have val (x y : BitVec 8) (hx : x.toNat < 128) (hy : y.toNat < 128) :
          ((x.zeroExtend 16 : BitVec 16) ||| ((y.zeroExtend 16 : BitVec 16) <<< 7)).toNat = x.toNat + 128 * y.toNat :=
        (C37_value_of_bytes 0 x y hx hy).2
      cases k
      case programChange =>
        obtain rfl : n = 1 := by simpa using c2
        have f : [(s &&& 0x0f#8).toNat, b1.toNat] = [(s' &&& 0x0f#8).toNat, b1'.toNat] := ef
        simp only [List.cons.injEq, and_true] at f
        rw [stat f.1, BitVec.eq_of_toNat_eq f.2]
        rfl
      case channelAftertouch =>
        obtain rfl : n = 1 := by simpa using c2
        have f : [(s &&& 0x0f#8).toNat, b1.toNat] = [(s' &&& 0x0f#8).toNat, b1'.toNat] := ef
        simp only [List.cons.injEq, and_true] at f
        rw [stat f.1, BitVec.eq_of_toNat_eq f.2]
        rfl
      case pitchBend =>
        obtain rfl : n = 2 := by simpa using c2
        have f : [(s &&& 0x0f#8).toNat, ((b1.zeroExtend 16 : BitVec 16) ||| ((b2.zeroExtend 16 : BitVec 16) <<< 7)).toNat]
          = [(s' &&& 0x0f#8).toNat, ((b1'.zeroExtend 16 : BitVec 16) ||| ((b2'.zeroExtend 16 : BitVec 16) <<< 7)).toNat] := ef
        obtain ⟨v1, v2⟩ := v rfl
        obtain ⟨w1, w2⟩ := v' rfl
        rw [val b1 b2 v1 v2, val b1' b2' w1 w2] at f
        simp only [List.cons.injEq, and_true] at f
        rw [stat f.1, BitVec.eq_of_toNat_eq (by omega : b1.toNat = b1'.toNat), BitVec.eq_of_toNat_eq (by omega : b2.toNat = b2'.toNat)]
      case noteOff | noteOn | polyAftertouch | controlChange =>
        obtain rfl : n = 2 := by simpa using c2
        have f : [(s &&& 0x0f#8).toNat, b1.toNat, b2.toNat] = [(s' &&& 0x0f#8).toNat, b1'.toNat, b2'.toNat] := ef
        simp only [List.cons.injEq, and_true] at f
        rw [stat f.1, BitVec.eq_of_toNat_eq f.2.1, BitVec.eq_of_toNat_eq f.2.2]
      all_goals exact absurd c1 (by decide)

/-- Byte `i` of a raw message, the least significant first. -/
def byteOf (m : BitVec 32) (i : Nat) : BitVec 8 := m.extractLsb' (8 * i) 8

/-- The channel message a read delivers, if any. -/
def wire (r : PmRead) : Option Msg :=
  match r with
  | .event m _ => chanMsg (byteOf m 0) (byteOf m 1) (byteOf m 2)
  | _ => none

/-- A read is proper if the device reported no error and a pitch bend has 7-bit data bytes, as MIDI requires. -/
def Proper (r : PmRead) : Prop :=
  match r with
  | .event m _ => 0xe0 ≤ (byteOf m 0).toNat → (byteOf m 0).toNat < 0xf0 → (byteOf m 1).toNat < 128 ∧ (byteOf m 2).toNat < 128
  | .nothing => True
  | .error _ => False

/-- The channel messages of a history, in order. -/
def messages (rs : List PmRead) : List Msg := rs.filterMap wire

theorem pack_bytes (m : BitVec 32) : m = pack (byteOf m 0) (byteOf m 1) (byteOf m 2) (byteOf m 3) := by
  apply BitVec.eq_of_getLsbD_eq
  intro i hi
  simp only [pack, byteOf, BitVec.getLsbD_append, BitVec.getLsbD_extractLsb']
  interval_cases i <;> simp

theorem chanMsg_chan {s b1 b2 : BitVec 8} {m : Msg} (h : chanMsg s b1 b2 = some m) : isChan m.kind = true ∧ s.toNat < 0xf0 ∧
    s.toNat / 16 = hiOf m.kind := by
  unfold chanMsg specMsg at h
  split_ifs at h with hs
  have c := specKind_chan s hs
  cases q : specKind s with
  | none => rw [q] at h; cases h
  | some p =>
    rw [q, Option.map_some] at h
    rw [q, Option.map_some, Option.getD_some, decide_eq_true_eq] at c
    injection h with h
    subst h
    exact ⟨c.1, hs, c.2.2⟩

theorem messages_chan (rs : List PmRead) : ∀ m ∈ messages rs, isChan m.kind = true := by
  intro m hm
  obtain ⟨r, -, hr⟩ := List.mem_filterMap.1 hm
  cases r with
  | event w t => exact (chanMsg_chan (m := m) hr).1
  | nothing => cases hr
  | error c => cases hr

theorem messages_good (rs : List PmRead) (h : ∀ r ∈ rs, Proper r) : ∀ m ∈ messages rs, ∃ s b1 b2, chanMsg s b1 b2 = some m ∧
    (m.kind = .pitchBend → b1.toNat < 128 ∧ b2.toNat < 128) := by
  intro m hm
  obtain ⟨r, hr, e⟩ := List.mem_filterMap.1 hm
  cases r with
  | event w t =>
    obtain ⟨-, c1, c2⟩ := chanMsg_chan (m := m) e
    refine ⟨_, _, _, e, fun hk => (h _ hr : Proper (.event w t)) ?_ c1⟩
    rw [hk] at c2
    have : (byteOf w 0).toNat / 16 = 14 := c2
    omega
  | nothing => cases e
  | error c => cases e

/-- What one read prints. -/
theorem process_text (r : PmRead) (h : ∀ c, r ≠ .error c) : ∃ call, process true r = .ok call ∧
    printed call = ((wire r).map handle).getD [] := by
  cases r with
  | nothing => exact ⟨none, rfl, rfl⟩
  | error c => exact absurd rfl (h c)
  | event m t =>
    refine ⟨(dispatch m).map fun x => (x, t.signExtend 64), rfl, ?_⟩
    show _ = ((chanMsg (byteOf m 0) (byteOf m 1) (byteOf m 2)).map handle).getD []
    unfold chanMsg
    by_cases hs : (byteOf m 0).toNat < 0xf0
    · rw [if_pos hs, ← C38_channel_dispatch_partial _ _ _ (byteOf m 3) hs, ← pack_bytes]
      cases dispatch m <;> rfl
    · rw [if_neg hs]
      have e : dispatch m = none := by
        rw [pack_bytes m]
        rw [dispatch_pack]
        have hb : (byteOf m 0).toNat / 16 = 15 := by have := (byteOf m 0).isLt; omega
        rw [hb]; rfl
      rw [e]; rfl

theorem run_text (rs : List PmRead) (h : ∀ r ∈ rs, ∀ c, r ≠ .error c) : run true rs = .ok ((messages rs).flatMap handle) := by
  induction rs with
  | nil => rfl
  | cons r rs ih =>
    obtain ⟨call, e1, e2⟩ := process_text r (h r List.mem_cons_self)
    rw [run, e1, ok_bind, ih fun x hx => h x (List.mem_cons_of_mem _ hx), ok_bind, e2]
    unfold messages
    rw [List.filterMap_cons]
    cases wire r <;> rfl

theorem flat_inj : ∀ (ms ms' : List Msg), (∀ m ∈ ms, isChan m.kind = true) → (∀ m ∈ ms', isChan m.kind = true) →
    ms.flatMap handle = ms'.flatMap handle → List.Forall₂ (fun m m' => m.kind = m'.kind ∧ fields m = fields m') ms ms' := by
  intro ms
  induction ms with
  | nil =>
    intro ms' _ h' e
    cases ms' with
    | nil => exact List.Forall₂.nil
    | cons m' ms' =>
      exfalso
      have := congrArg (List.count '\n') e
      rw [List.flatMap_cons, List.count_append, handle_lines, if_pos (h' m' List.mem_cons_self)] at this
      simp at this
      omega
  | cons m ms ih =>
    intro ms' h h' e
    cases ms' with
    | nil =>
      exfalso
      have := congrArg (List.count '\n') e
      rw [List.flatMap_cons, List.count_append, handle_lines, if_pos (h m List.mem_cons_self)] at this
      simp at this
    | cons m' ms' =>
      rw [List.flatMap_cons, List.flatMap_cons] at e
      obtain ⟨a, b, e⟩ := handle_inj m m' (h m List.mem_cons_self) (h' m' List.mem_cons_self) _ _ e
      exact List.Forall₂.cons ⟨a, b⟩ (ih ms' (fun x hx => h x (List.mem_cons_of_mem _ hx)) (fun x hx => h' x (List.mem_cons_of_mem _ hx)) e)

end Monitor
open Monitor

/-- **C105** As long as the device reports no error, the monitor prints one line for every channel message and nothing else, in the order
of arrival: the text of a history is the text of its first part followed by that of the rest.  An invalid stream prints nothing. -/
theorem C105_lines (rs rs' : List PmRead) (h : ∀ r ∈ rs ++ rs', ∀ c, r ≠ .error c) :
    ∃ t t', run true rs = .ok t ∧ run true rs' = .ok t' ∧ run true (rs ++ rs') = .ok (t ++ t') ∧
      t.count '\n' = (messages rs).length ∧ run false (rs ++ rs') = .ok [] := by
  have hm : messages (rs ++ rs') = messages rs ++ messages rs' := List.filterMap_append
  refine ⟨_, _, run_text rs fun r hr => h r (List.mem_append_left _ hr), run_text rs' fun r hr => h r (List.mem_append_right _ hr), ?_, ?_, ?_⟩
  · rw [run_text _ h, hm, List.flatMap_append]
  · have hc := messages_chan rs
    revert hc
    generalize messages rs = ms
    intro hc
    induction ms with
    | nil => rfl
    | cons m ms ih =>
      rw [List.flatMap_cons, List.count_append, handle_lines, if_pos (hc m List.mem_cons_self), ih fun x hx => hc x (List.mem_cons_of_mem _ hx),
        List.length_cons, Nat.add_comm]
  · clear h hm
    induction rs ++ rs' with
    | nil => rfl
    | cons r rs ih => rw [run, show process false r = .ok none from rfl, ok_bind, ih]; rfl

/-- **C105** The text can be read back: two histories have the same text exactly when they have the same channel messages - kind, channel
and data bytes - in the same order. -/
theorem C105_readable (rs rs' : List PmRead) (h : ∀ r ∈ rs, Proper r) (h' : ∀ r ∈ rs', Proper r) :
    run true rs = run true rs' ↔ messages rs = messages rs' := by
  have ne (xs : List PmRead) (hx : ∀ r ∈ xs, Proper r) : ∀ r ∈ xs, ∀ c, r ≠ .error c := by
    intro r hr c e
    have := hx r hr
    rw [e] at this
    exact this
  rw [run_text rs (ne rs h), run_text rs' (ne rs' h')]
  constructor
  · intro e
    injection e with e
    have f := flat_inj _ _ (messages_chan rs) (messages_chan rs') e
    have k := messages_good rs h
    have k' := messages_good rs' h'
    revert f k k'
    generalize messages rs = ms
    generalize messages rs' = ms'
    intro f
    induction f with
    | nil => intros; rfl
    | cons hd _ ih =>
      intro k k'
      obtain ⟨s, b1, b2, e1, v1⟩ := k _ List.mem_cons_self
      obtain ⟨s', b1', b2', e2, v2⟩ := k' _ List.mem_cons_self
      rw [chanMsg_inj _ _ _ _ _ _ _ _ e1 e2 v1 v2 hd.1 hd.2, ih (fun x hx => k x (List.mem_cons_of_mem _ hx)) fun x hx => k' x (List.mem_cons_of_mem _ hx)]
  · intro e
    rw [e]

/-- **C105** is false when the device reports an error: an uninitialised event is printed. -/
theorem C105_error_violation (c : Int) (rs : List PmRead) : run true (.error c :: rs) = .error .uninit := rfl

example : run true [.event (pack 0x93#8 60#8 100#8 0#8) 5#32, .nothing, .event (pack 0xf8#8 0#8 0#8 0#8) 6#32,
    .event (pack 0xe1#8 0x45#8 0x46#8 0#8) 7#32] = .ok
    "Note On  {Channel: 3, Key: 60, Velocity: 100}\nPitch Bend             {Channel: 1, Value: 9029}\n".toList := by decide +kernel

/-- The hypotheses of `C105_readable` are met by that history. -/
example : ∀ r ∈ [PmRead.event (pack 0x93#8 60#8 100#8 0#8) 5#32, .nothing, .event (pack 0xf8#8 0#8 0#8 0#8) 6#32,
    .event (pack 0xe1#8 0x45#8 0x46#8 0#8) 7#32], Proper r := by
  intro r hr
  simp only [List.mem_cons, List.not_mem_nil, or_false] at hr
  rcases hr with rfl | rfl | rfl | rfl
  all_goals (first | trivial | (show _ → _ → _ ∧ _; decide +kernel))

/-- Without 7-bit data bytes two pitch bends can print the same line. -/
example : run true [.event (pack 0xe0#8 0x80#8 0#8 0#8) 0#32] = run true [.event (pack 0xe0#8 0#8 1#8 0#8) 0#32] := by decide +kernel

end Midi
end Verif
