import Verif.Io

/-!
# Specification: what a device delivers
-/

namespace Typical

/-- The bytes which a call yields. -/
def Event.bytes : Event → Bytes
  | .data b bs => b :: bs
  | .fail _ => []

/-- Does a call succeed? -/
def Event.isData : Event → Bool
  | .data _ _ => true
  | .fail _ => false

/-- All bytes which the calls yield, in order. -/
def delivered (events : List Event) : Bytes := events.flatMap Event.bytes

/-- A device which yields this, call by call, and then its end. -/
def deviceOf (events : List Event) : Reader := .device [] events

/-- A result of the byte list model as a result of reading from a device. -/
def asIo {α : Type} : Except Err α → Except IoErr α
  | .ok a => .ok a
  | .error .eof => .error (.io .unexpectedEof)
  | .error .invalid => .error (.io .invalidData)
  | .error .panic => .error .panic
  | .error .hang => .error .hang
  | .error .fuel => .error .fuel

/-- Is it the type of a declaration (a struct or a choice)? Those are the ones with
`Deserialize` implementations. -/
def CTy.isDecl : CTy → Bool
  | .struct _ => true
  | .choice _ => true
  | _ => false

/-- A device which accepts this, call by call, and then everything. -/
def writerOf (events : List WEvent) : Writer := ⟨[], events⟩

end Typical
