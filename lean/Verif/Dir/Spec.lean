import Verif.Dir.Model
import Verif.RowJson.Spec

/-!
# Specification: what a peer should be shown
-/

namespace Verif.Dir

open Verif.RowJson (Plain)

/-- Whether bit `i` of the permissions is set, as a letter. -/
def permBit (perm i : Nat) (c : Char) : Char := if perm.testBit i then c else '-'

/-- The permissions as `ls` shows them. -/
def permShown (perm : Nat) : Text :=
  ['-', permBit perm 8 'r', permBit perm 7 'w', permBit perm 6 'x',
    permBit perm 5 'r', permBit perm 4 'w', permBit perm 3 'x',
    permBit perm 2 'r', permBit perm 1 'w', permBit perm 0 'x']

/-- Consistent or not, local or remote, pushed or not. -/
def flagsShown (closed : Bool) (o : Origin) (push : Bool) : Text :=
  [if closed then 'C' else ' ',
   match o with
   | .localSet => 'L'
   | .remoteSet => 'R'
   | .other => ' ',
   if push then 'P' else ' ']

/-- The information shown: local information, and remote information under other keys. -/
def infoShown (l r : List (Text × Text)) : List (Text × Text) :=
  l ++ r.filter fun p => p.1 ∉ l.map Prod.fst

/-- What a peer should be told of a set. -/
def shown (s : SetRec) : DirSet where
  name := s.name
  schema := s.schema
  digest := s.digest
  flags := flagsShown s.closed s.origin s.push
  metaSize := s.metaSz
  dataSize := s.dataSz
  heapSize := s.heapSz
  uid := s.uid
  gid := s.gid
  perm := permShown s.perm
  card := s.card
  arrayCard := s.arrayCard
  metaGn := s.metaGn
  dataGn := s.dataGn
  sec := s.sec
  usec := s.usec
  dsec := s.dsec
  dusec := s.dusec
  info := infoShown s.localInfo s.remoteInfo

/-- A set whose texts need no escapes in JSON and whose sizes, counts and generation numbers have the sign bit
clear; the other numbers are of 32 bits. -/
structure Ordinary (s : SetRec) : Prop where
  name : Plain s.name
  schema : Plain s.schema
  digest : Plain s.digest
  linfo : ∀ p ∈ s.localInfo, Plain p.1 ∧ Plain p.2
  rinfo : ∀ p ∈ s.remoteInfo, Plain p.1 ∧ Plain p.2
  metaSz : s.metaSz < 2 ^ 31
  dataSz : s.dataSz < 2 ^ 31
  heapSz : s.heapSz < 2 ^ 31
  card : s.card < 2 ^ 31
  arrayCard : s.arrayCard < 2 ^ 31
  metaGn : s.metaGn < 2 ^ 63
  dataGn : s.dataGn < 2 ^ 63
  uid : s.uid < 2 ^ 32
  gid : s.gid < 2 ^ 32
  sec : s.sec < 2 ^ 32
  usec : s.usec < 2 ^ 32
  dsec : s.dsec < 2 ^ 32
  dusec : s.dusec < 2 ^ 32

/-- What the application is told is a whole directory, in one or more parts: each part but the last says that
more will come, and the last that there is no more. -/
inductive Whole : List (Option Told) → List DirSet → Prop
  | last (l) : Whole [some (.listing false l)] l
  | more (l) {ms r} : Whole ms r → Whole (some (.listing true l) :: ms) (l ++ r)

/-- The number of characters that show a set: what is before it, the set with its information, and the
brackets after that. -/
def width (s : SetRec) : Nat := 1 + (headText s).length + (infoPieces (infos s)).flatten.length + 2

/-- The last message is an error and all before it say that more will come. -/
def Failed (ms : List Msg) : Prop := ∃ pre, ms = pre ++ [⟨ENOMEM, false, []⟩] ∧ ∀ m ∈ pre, m.more = true

/-- The sets of a message, if it is read. -/
def toldBy (m : Msg) : List DirSet :=
  match processReply m with
  | some (.listing _ l) => l
  | _ => []

/-- The sets of names that are there and may be read. -/
def readable (acc : SetRec → Bool) (names : List (Option SetRec)) : List SetRec := (names.filterMap id).filter acc

end Verif.Dir
