import Verif.Lookup.Model

/-! # What a lookup is -/

namespace Verif.Lookup

/-- What may be asked for. -/
inductive Query
  | instance (name : Text)
  | schema (name : Text)
  | instanceRe (p : Text → Bool)
  | schemaRe (p : Text → Bool)

/-- The request says `q`: bit 0 of the flags asks by schema, bit 1 says that the path is an expression. -/
def Asks (E : Env) (flags : Nat) (path : Text) : Query → Prop
  | .instance n => flags % 4 = 0 ∧ path = n
  | .schema n => flags % 4 = 1 ∧ path = n
  | .instanceRe p => flags % 4 = 2 ∧ E.comp path = some p
  | .schemaRe p => flags % 4 = 3 ∧ E.comp path = some p

/-- A set is one of those asked for. -/
def Query.wants : Query → SetR → Bool
  | .instance n, s => s.name == n
  | .schema n, s => s.schema == n
  | .instanceRe p, s => p s.name
  | .schemaRe p, s => p s.schema

/-- One name is asked for. -/
def Query.single : Query → Bool
  | .instance _ => true
  | _ => false

/-- The messages of a request. -/
def messages : List Act → List Msg
  | [] => []
  | .send m :: l => m :: messages l
  | _ :: l => messages l

/-- The sets among the messages. -/
def shared : List Msg → List SetR
  | [] => []
  | .share s _ :: l => s :: shared l
  | .err _ :: l => shared l

/-- The sending of a set succeeds. -/
def Sends (E : Env) (s : SetR) : Prop := E.shareRc s = 0 ∧ E.peerRc s = 0

/-- Sets one after the other, with the flag that more come on all but the last. -/
def flagged : List SetR → List Msg
  | [] => []
  | [s] => [.share s false]
  | s :: l => .share s true :: flagged l

/-- The lock is free before; every lock is of a free lock, every unlock of a locked one.  What is left, `none` if the
rule is broken. -/
def follow : Bool → List Act → Option Bool
  | b, [] => some b
  | false, .lock :: l => follow true l
  | true, .lock :: _ => none
  | true, .unlock :: l => follow false l
  | false, .unlock :: _ => none
  | b, .send _ :: l => follow b l

/-- The messages among what comes. -/
def arrived : List Ev → List Msg
  | [] => []
  | .message m :: l => m :: arrived l
  | .read :: l => arrived l

/-- What the application should be told of sets: one call for each, `more` on all but the last. -/
def told (W : World) : List SetR → List Call
  | [] => []
  | s :: l =>
    (if W.readOk s.name then ⟨0, !l.isEmpty, some s.name⟩ else ⟨EREMOTEIO, !l.isEmpty, none⟩) :: told W l

end Verif.Lookup
