import Verif.Model.Midi
import Verif.Proof.Rounding
import Mathlib.Analysis.SpecialFunctions.Pow.Real
import Mathlib.Tactic.IntervalCases
/-!
# Note names, numbers and frequencies (C39, C40)
-/
namespace Verif
open Midi Rounding

namespace Midi

/-- Specification: the semitone of a note letter above the C of its octave. -/
def letter : Char → Option Int
  | 'C' | 'c' => some 0
  | 'D' | 'd' => some 2
  | 'E' | 'e' => some 4
  | 'F' | 'f' => some 5
  | 'G' | 'g' => some 7
  | 'A' | 'a' => some 9
  | 'B' | 'b' => some 11
  | _ => none

/-- Specification: an accidental and the number of semitones it adds. -/
def Accidental (a : List Char) (n : Int) : Prop := (a = [] ∧ n = 0) ∨ (a = ['#'] ∧ n = 1) ∨ (a = ['b'] ∧ n = -1)

/-- Specification: the names of the twelve pitch classes. -/
def pitchClass : List String := ["C", "C#", "D", "D#", "E", "F", "F#", "G", "G#", "A", "A#", "B"]

theorem letter_ascii (c : Char) (h : 128 ≤ c.toNat) : letter c = none := by
  unfold letter
  split <;> first | rfl | (exact absurd h (by decide))

theorem baseNote_ascii (c : Char) (h : 128 ≤ c.toNat) : baseNote c = none := by
  have e : c.toUpper = c := by
    unfold Char.toUpper
    rw [dif_neg]
    intro hh
    have h2 := hh.2
    have : c.val.toNat ≤ 122 := by
      have := UInt32.le_iff_toNat_le.mp h2
      simpa using this
    have : c.toNat ≤ 122 := this
    omega
  unfold baseNote
  rw [e]
  split <;> first | rfl | (exact absurd h (by decide))

theorem baseNote_letter (c : Char) : baseNote c = (letter c).map fun n => BitVec.ofInt 8 (12 + n) := by
  by_cases h : c.toNat < 128
  · have key : ∀ n : Fin 128, baseNote (Char.ofNat n) = (letter (Char.ofNat n)).map fun n => BitVec.ofInt 8 (12 + n) := by
      decide +kernel
    have := key ⟨c.toNat, h⟩
    rw [show Char.ofNat ((⟨c.toNat, h⟩ : Fin 128) : Nat) = c from Char.ofNat_toNat c] at this
    exact this
  · rw [baseNote_ascii c (by omega), letter_ascii c (by omega)]; rfl

theorem noteOctave_digit (x : BitVec 8) (d : Char) (hd : d.isDigit = true) :
    noteOctave (some x) [d] = .ok (x.toNat + ((d.toNat : Int) - 48) * 12) := by
  show (if (d.isDigit && true) = true then _ else _) = _
  rw [if_pos (by simp [hd])]

theorem noteOctave_bad (x : Option (BitVec 8)) (l : List Char) (hl : ¬ ∃ d, d.isDigit = true ∧ l = [d]) :
    noteOctave x l = .ok (-1) := by
  match l with
  | [] => rfl
  | d :: r =>
    show (if (d.isDigit && r.isEmpty) = true then _ else _) = _
    rw [if_neg]
    intro h
    simp only [Bool.and_eq_true, List.isEmpty_iff] at h
    exact hl ⟨d, h.1, by rw [h.2]⟩

theorem noteNumber_cons (c a : Char) (r : List Char) : noteNumber (c :: a :: r) =
    if a = '#' then (shiftNote (baseNote c) 1).bind fun n => noteOctave n r
    else if a = 'b' then (shiftNote (baseNote c) (-1)).bind fun n => noteOctave n r
    else noteOctave (baseNote c) (a :: r) := rfl

end Midi

/-- **C39** A well-formed name (letter in either case, optional `#` or `b`, one octave digit) has the number
`12 * (octave + 1) + semitone + accidental`. -/
theorem C39_parse (c d : Char) (a : List Char) (n k : Int) (hc : letter c = some n) (ha : Accidental a k)
    (hd : d.isDigit = true) :
    noteNumber (c :: a ++ [d]) = .ok (12 * ((d.toNat : Int) - 48 + 1) + n + k) := by
  have hb : baseNote c = some (BitVec.ofInt 8 (12 + n)) := by rw [baseNote_letter, hc]; rfl
  have hn : ∃ m : Nat, n = m ∧ m ≤ 11 := by
    unfold letter at hc
    split at hc <;> first | (injection hc with hc; subst hc; exact ⟨_, rfl, by decide⟩) | (cases hc)
  obtain ⟨m, rfl, hm⟩ := hn
  have hda : d ≠ '#' ∧ d ≠ 'b' := by
    constructor <;> (rintro rfl; revert hd; decide)
  have val : ∀ m : Nat, m ≤ 11 → ((BitVec.ofInt 8 (12 + (m : Int))).toNat = 12 + m ∧
      (BitVec.ofInt 8 (12 + (m : Int)) + 1).toNat = 13 + m ∧ (BitVec.ofInt 8 (12 + (m : Int)) + -1).toNat = 11 + m) := by
    intro m hm
    interval_cases m <;> decide
  obtain ⟨v0, v1, v2⟩ := val m hm
  have e : ¬ ('b' = '#') := by decide
  rcases ha with ⟨rfl, rfl⟩ | ⟨rfl, rfl⟩ | ⟨rfl, rfl⟩
  · rw [show c :: [] ++ [d] = c :: d :: [] from rfl, noteNumber_cons, if_neg hda.1, if_neg hda.2, hb,
      noteOctave_digit _ d hd, v0]
    congr 1; push_cast; ring
  · rw [show c :: ['#'] ++ [d] = c :: '#' :: [d] from rfl, noteNumber_cons, if_pos rfl, hb]
    show noteOctave (some (_ + 1)) [d] = _
    rw [noteOctave_digit _ d hd, v1]
    congr 1; push_cast; ring
  · rw [show c :: ['b'] ++ [d] = c :: 'b' :: [d] from rfl, noteNumber_cons, if_neg e, if_pos rfl, hb]
    show noteOctave (some (_ + -1)) [d] = _
    rw [noteOctave_digit _ d hd, v2]
    congr 1; push_cast; ring

/-- **C39** A string that starts with a note letter but is not a well-formed name gives `-1`, and so does the
empty string. -/
theorem C39_malformed (c : Char) (n : Int) (rest : List Char) (hc : letter c = some n)
    (hr : ¬ ∃ a k d, Accidental a k ∧ d.isDigit = true ∧ rest = a ++ [d]) :
    noteNumber (c :: rest) = .ok (-1) ∧ noteNumber [] = .ok (-1) := by
  refine ⟨?_, rfl⟩
  have hb : baseNote c = some (BitVec.ofInt 8 (12 + n)) := by rw [baseNote_letter, hc]; rfl
  match rest with
  | [] => rfl
  | a :: r =>
    rw [noteNumber_cons, hb]
    by_cases h1 : a = '#'
    · rw [if_pos h1]
      refine noteOctave_bad (some _) r ?_
      rintro ⟨d, hd, rfl⟩
      exact hr ⟨['#'], 1, d, Or.inr (Or.inl ⟨rfl, rfl⟩), hd, by rw [h1]; rfl⟩
    · rw [if_neg h1]
      by_cases h2 : a = 'b'
      · rw [if_pos h2]
        refine noteOctave_bad (some _) r ?_
        rintro ⟨d, hd, rfl⟩
        exact hr ⟨['b'], -1, d, Or.inr (Or.inr ⟨rfl, rfl⟩), hd, by rw [h2]; rfl⟩
      · rw [if_neg h2]
        refine noteOctave_bad _ _ ?_
        rintro ⟨d, hd, e⟩
        exact hr ⟨[], 0, d, Or.inl ⟨rfl, rfl⟩, hd, e⟩

/-- **C39** is false for strings that do not start with a note letter: `note_number` then uses the variable `n`,
which it never initialised.  This happens exactly when the rest starts with an accidental or is a single digit;
otherwise the result is `-1`. -/
theorem C39_bad_letter_violation (c : Char) (rest : List Char) (hc : letter c = none) :
    ((∃ r, rest = '#' :: r) ∨ (∃ r, rest = 'b' :: r) ∨ (∃ d : Char, d.isDigit = true ∧ rest = [d]) →
      noteNumber (c :: rest) = .error .uninit) ∧
    (¬ ((∃ r, rest = '#' :: r) ∨ (∃ r, rest = 'b' :: r) ∨ (∃ d : Char, d.isDigit = true ∧ rest = [d])) →
      noteNumber (c :: rest) = .ok (-1)) := by
  have hb : baseNote c = none := by rw [baseNote_letter, hc]; rfl
  constructor
  · rintro (⟨r, rfl⟩ | ⟨r, rfl⟩ | ⟨d, hd, rfl⟩)
    · rw [noteNumber_cons, hb]; rfl
    · rw [noteNumber_cons, hb, if_neg (by decide)]; rfl
    · have hda : d ≠ '#' ∧ d ≠ 'b' := by
        constructor <;> (rintro rfl; revert hd; decide)
      rw [noteNumber_cons, hb, if_neg hda.1, if_neg hda.2]
      show (if (d.isDigit && true) = true then _ else _) = _
      rw [if_pos (by simp [hd])]
  · intro h
    match rest with
    | [] => rfl
    | a :: r =>
      rw [noteNumber_cons, hb, if_neg (fun e => h (Or.inl ⟨r, by rw [e]⟩)),
        if_neg (fun e => h (Or.inr (Or.inl ⟨r, by rw [e]⟩)))]
      exact noteOctave_bad _ _ fun e => h (Or.inr (Or.inr e))

/-- `note_number("H4")` reads an uninitialised variable. -/
theorem C39_h4_violation : noteNumber ['H', '4'] = .error .uninit := by decide +kernel

/-- **C39** `note_name(k)` is the pitch class of `k` followed by its octave (middle C, 60, is C4), for every MIDI
key, and `"--"` for the other bytes. -/
theorem C39_names (k : BitVec 8) :
    noteName k = .ok (if k.toNat < 128 then pitchClass.getD (k.toNat % 12) "" ++
      (if k.toNat < 12 then "-1" else toString (k.toNat / 12 - 1)) else "--") := by
  revert k; decide +kernel

/-- **C39** Round trip: parsing the name of a key gives the key back, for every key from 12 (C0) to 127 (G9); the
names of the keys below 12 (octave -1) are rejected. -/
theorem C39_round_trip (k : BitVec 8) (hk : k.toNat < 128) :
    ∃ s, noteName k = .ok s ∧ noteNumber s.toList = .ok (if 12 ≤ k.toNat then (k.toNat : Int) else -1) := by
  have key : ∀ k : BitVec 8, k.toNat < 128 → (noteName k).map (fun s => noteNumber s.toList)
      = .ok (.ok (if 12 ≤ k.toNat then (k.toNat : Int) else -1)) := by decide +kernel
  have := key k hk
  cases h : noteName k with
  | error e => rw [h] at this; cases this
  | ok s => rw [h] at this; refine ⟨s, rfl, ?_⟩; injection this

example : noteNumber "c#4".toList = .ok 61 ∧ noteNumber "Db4".toList = .ok 61 ∧ noteName 61#8 = .ok "C#4" := by
  decide +kernel

end Verif
