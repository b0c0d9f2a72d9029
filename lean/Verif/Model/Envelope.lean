import Verif.Model.UB
import Verif.Model.Rounding
/-!
# `envelope` (q_lib/include/q/synth/envelope.hpp) and `fast_exp3` (support/base.hpp)

Every `float` operation is followed by the rounding `fl`, every `double` operation by `fd`.  With `fl = fd = id`
this is exact arithmetic; with `Rounding.fl32`, `Rounding.fl64` it is IEEE-754 arithmetic (without overflow).
-/
namespace Verif
namespace Env

variable (fl fd : ℚ → ℚ)

/-- `fast_exp3(x)` (support/base.hpp 71-74). -/
def fastExp3 (x : ℚ) : ℚ :=
  fl (fl (6 + fl (x * fl (6 + fl (x * fl (3 + x))))) * fl (16666666 / 10 ^ 8))

/-- `fast_exp3(-2.0f / (sps * double(d)))` (envelope.hpp 98-102 and the rate setters; fx/envelope.hpp): the
quotient is a `double`, converted to the `float` parameter of `fast_exp3`. -/
def coef (sps : Nat) (d : ℚ) : ℚ := fastExp3 fl (fl (fd (-2 / fd (sps * d))))

/-- `envelope::hysteresis` (envelope.hpp 25). -/
def hysteresis : ℚ := fl (fd (1 / 10000))

/-- `envelope::state_enum` (envelope.hpp 27-36). -/
inductive State where
  | noteOff | attack | legato | decay | sustain | release | noteRelease
  deriving DecidableEq, Repr

/-- The data members (envelope.hpp 79-91).  `none` is an uninitialised member. -/
structure Envelope where
  state : State
  y : ℚ
  attackRate : ℚ
  level : Option ℚ
  decayRate : ℚ
  legatoLevel : Option ℚ
  sustainLevel : ℚ
  startSustainLevel : Option ℚ
  sustainRate : ℚ
  releaseRate : ℚ
  noteOffLevel : ℚ
  endNoteOffLevel : ℚ
  autoDecay : Int
  deriving DecidableEq

/-- `envelope::config` (envelope.hpp 38-47); durations in seconds, the sustain level as the amplitude
`float(sustain_level)`. -/
structure Config where
  attackRate : ℚ
  decayRate : ℚ
  sustainLevel : ℚ
  sustainRate : ℚ
  releaseRate : ℚ

/-- `envelope(config, sps)` (envelope.hpp 97-103). -/
def mk' (c : Config) (sps : Nat) : Envelope :=
  { state := .noteOff, y := 0, attackRate := coef fl fd sps c.attackRate, level := none
    decayRate := coef fl fd sps c.decayRate, legatoLevel := none, sustainLevel := c.sustainLevel
    startSustainLevel := none, sustainRate := coef fl fd sps c.sustainRate
    releaseRate := coef fl fd sps c.releaseRate, noteOffLevel := 0, endNoteOffLevel := 0, autoDecay := 1 }

/-- Reading a possibly uninitialised member. -/
def get (x : Option ℚ) : C ℚ := match x with
  | some v => .ok v
  | none => .error .uninit

/-- `t + r * (y - t)` in `float`. -/
def approach (t r y : ℚ) : ℚ := fl (t + fl (r * fl (y - t)))

/-- `update_legato()` (envelope.hpp 206-214). -/
def updateLegato (e : Envelope) : C Envelope := do
  let l ← get e.legatoLevel
  let y := approach fl l e.attackRate e.y
  if y < fl (l + hysteresis fl fd) then return { e with y := l, state := .sustain }
  else return { e with y := y }

/-- `update_attack()` (envelope.hpp 216-228). -/
def updateAttack (e : Envelope) : C Envelope := do
  let y := approach fl (fl (16 / 10)) e.attackRate e.y
  let l ← get e.level
  if y > l then
    let s := if e.autoDecay = 1 then .decay else if e.autoDecay = -1 then .sustain else e.state
    return { e with y := l, state := s }
  else return { e with y := y }

/-- `update_decay()` (envelope.hpp 230-240). -/
def updateDecay (e : Envelope) : C Envelope := do
  let lv ← get e.level
  let level := fl (lv * e.sustainLevel)
  let y := approach fl level e.decayRate e.y
  if y < fl (level + hysteresis fl fd) then
    return { e with y := level, startSustainLevel := some level, state := .sustain }
  else return { e with y := y }

/-- `update_sustain()` (envelope.hpp 242-245). -/
def updateSustain (e : Envelope) : Envelope := { e with y := fl (e.y * e.sustainRate) }

/-- `update_release()` (envelope.hpp 253-264). -/
def updateRelease (e : Envelope) : Envelope :=
  let y := approach fl e.noteOffLevel e.releaseRate e.y
  if y < fl (e.noteOffLevel + hysteresis fl fd) then
    let y := e.noteOffLevel
    let s := if y < e.endNoteOffLevel then .noteRelease
      else if y < hysteresis fl fd then .noteOff else e.state
    { e with y := y, state := s }
  else { e with y := y }

/-- `operator()()` (envelope.hpp 149-179): new state and returned value. -/
def tick (e : Envelope) : C (Envelope × ℚ) :=
  match e.state with
  | .noteOff => .ok (e, 0)
  | .legato => do let e ← updateLegato fl fd e; return (e, e.y)
  | .attack => do let e ← updateAttack fl e; return (e, e.y)
  | .decay => do let e ← updateDecay fl fd e; return (e, e.y)
  | .sustain => .ok (updateSustain fl e, (updateSustain fl e).y)
  | .release | .noteRelease => .ok (updateRelease fl fd e, (updateRelease fl fd e).y)

/-- `trigger(level, auto_decay)` (envelope.hpp 181-189). -/
def trigger (e : Envelope) (level : ℚ) (autoDecay : Int) : Envelope :=
  if e.y < level then { e with autoDecay := autoDecay, level := some level, state := .attack } else e

/-- `legato()` (envelope.hpp 191-199): the member `_start_sustain_level` is read only in the sustain state. -/
def legato (e : Envelope) : C Envelope :=
  if e.state = .sustain then do
    let s ← get e.startSustainLevel
    if e.y < s then return { e with autoDecay := -1, legatoLevel := some s, state := .legato } else return e
  else .ok e

/-- `decay()` (envelope.hpp 201-204). -/
def decay (e : Envelope) : Envelope := { e with autoDecay := 1 }

/-- `release()` (envelope.hpp 247-251). -/
def release (e : Envelope) : Envelope := if e.state ≠ .noteOff then { e with state := .release } else e

/-- `note_off_level(level)` (envelope.hpp 140-147): `level * 0.1` is a `double` product. -/
def setNoteOffLevel (e : Envelope) (level : ℚ) : Envelope :=
  if level < e.y then { e with noteOffLevel := level, endNoteOffLevel := fl (fd (level * fd (1 / 10))) } else e

/-- `release_rate(float)` (envelope.hpp 134-138). -/
def setReleaseRateF (e : Envelope) (r : ℚ) : Envelope := if r < 1 then { e with releaseRate := r } else e

/-- The public mutating operations. -/
inductive Op where
  | tick
  | trigger (level : ℚ) (autoDecay : Int)
  | legato
  | decay
  | release
  | attackRate (d : ℚ) (sps : Nat)
  | decayRate (d : ℚ) (sps : Nat)
  | sustainLevel (level : ℚ)
  | sustainRate (d : ℚ) (sps : Nat)
  | releaseRate (d : ℚ) (sps : Nat)
  | releaseRateF (r : ℚ)
  | noteOffLevel (level : ℚ)

/-- One call (the setters: envelope.hpp 109-147). -/
def step (e : Envelope) : Op → C Envelope
  | .tick => do let r ← tick fl fd e; return r.1
  | .trigger l a => .ok (trigger e l a)
  | .legato => legato e
  | .decay => .ok (decay e)
  | .release => .ok (release e)
  | .attackRate d sps => .ok { e with attackRate := coef fl fd sps d }
  | .decayRate d sps => .ok { e with decayRate := coef fl fd sps d }
  | .sustainLevel l => .ok { e with sustainLevel := l }
  | .sustainRate d sps => .ok { e with sustainRate := coef fl fd sps d }
  | .releaseRate d sps => .ok { e with releaseRate := coef fl fd sps d }
  | .releaseRateF r => .ok (setReleaseRateF e r)
  | .noteOffLevel l => .ok (setNoteOffLevel fl fd e l)

/-- A history of calls. -/
def run (e : Envelope) : List Op → C Envelope
  | [] => .ok e
  | op :: ops => do run (← step fl fd e op) ops

end Env
end Verif
