import Verif.JsonText.Model

/-!
# The directory shown to peers (`ldms/src/core/ldms_xprt.c`, `ldms.c`)

A text is a list of characters.  Memory is never short and sends do not fail.  A set may be gone between the
listing of the names and the turn of its name; its contents do not change while the reply is made.  The
set information kept of remote sets (see `Verif/SetInfo`) and statistics are not modelled.
-/

namespace Verif.Dir

open Verif.JsonText (Ent decInt decNat valueFind attrFind parse)

abbrev Text := List Char

inductive Origin
  | localSet | remoteSet | other

/-- What is shown of a `struct ldms_set` (ldms_private.h:124-152): `closed` if the last transaction has ended,
`push` if changes are pushed.  Numbers are unsigned, of 32 bits, generation numbers of 64. -/
structure SetRec where
  name : Text
  schema : Text
  digest : Text
  closed : Bool
  origin : Origin
  push : Bool
  metaSz : Nat
  dataSz : Nat
  heapSz : Nat
  uid : Nat
  gid : Nat
  perm : Nat
  card : Nat
  arrayCard : Nat
  metaGn : Nat
  dataGn : Nat
  sec : Nat
  usec : Nat
  dsec : Nat
  dusec : Nat
  localInfo : List (Text × Text)
  remoteInfo : List (Text × Text)

/-! ## Printing a set -/

/-- `%d` of a number of 32 bits without sign. -/
def sd (n : Nat) : Text := decInt (if n < 2 ^ 31 then n else (n : Int) - 2 ^ 32)

/-- The loop over `mask` in ldms.c:383-400. -/
def rwx (m : Nat) : Text :=
  [if m &&& 4 ≠ 0 then 'r' else '-', if m &&& 2 ≠ 0 then 'w' else '-', if m &&& 1 ≠ 0 then 'x' else '-']

/-- ldms.c:377-401 -/
def permStr (perm : Nat) : Text := '-' :: (rwx (perm >>> 6) ++ rwx (perm >>> 3) ++ rwx perm)

/-- ldms.c:403-419 -/
def flagStr (s : SetRec) : Text :=
  [if s.closed then 'C' else ' ',
   match s.origin with
   | .localSet => 'L'
   | .remoteSet => 'R'
   | .other => ' ',
   if s.push then 'P' else ' ']

/-- A member of the format with `\"%s\"`. -/
def fStr (k : String) (v : Text) : Text := '"' :: k.toList ++ ['"', ':', '"'] ++ v ++ ['"']

/-- A member of the format with a number. -/
def fNum (k : String) (v : Text) : Text := '"' :: k.toList ++ ['"', ':'] ++ v

/-- Members with commas between them. -/
def commaSep : List Text → Text
  | [] => []
  | [t] => t
  | t :: ts => t ++ ',' :: commaSep ts

/-- The members of the format (ldms.c:423-438). -/
def members (s : SetRec) : List Text :=
  [fStr "name" s.name, fStr "schema" s.schema, fStr "digest" s.digest, fStr "flags" (flagStr s),
   fNum "meta_size" (sd s.metaSz), fNum "data_size" (sd s.dataSz), fNum "heap_size" (sd s.heapSz),
   fNum "uid" (sd s.uid), fNum "gid" (sd s.gid), fStr "perm" (permStr s.perm),
   fNum "card" (sd s.card), fNum "array_card" (sd s.arrayCard),
   fNum "meta_gn" (decNat s.metaGn), fNum "data_gn" (decNat s.dataGn),
   fNum "timestamp" ('{' :: commaSep [fNum "sec" (sd s.sec), fNum "usec" (sd s.usec)] ++ ['}']),
   fNum "duration" ('{' :: commaSep [fNum "sec" (sd s.dsec), fNum "usec" (sd s.dusec)] ++ ['}'])]

/-- The first `snprintf` (ldms.c:421-457) after its first character: the members and `"info":[`. -/
def headText (s : SetRec) : Text := '{' :: commaSep (members s ++ [fNum "info" ['[']])

/-- The information shown: local, then remote that is not overridden (ldms.c:462-491). -/
def infos (s : SetRec) : List (Text × Text) :=
  s.localInfo ++ s.remoteInfo.filter fun p => !(s.localInfo.any fun q => q.1 == p.1)

/-- A pair (ldms.c:469-471, 485-487). -/
def infoText (p : Text × Text) : Text :=
  '{' :: fStr "key" p.1 ++ ',' :: fStr "value" p.2 ++ ['}']

/-- The calls of `snprintf` after the first: a comma and a pair each, and the end. -/
def infoPieces : List (Text × Text) → List Text
  | [] => []
  | p :: ps => infoText p :: (ps.map fun q => [[','], infoText q]).flatten

/-- `snprintf` after `snprintf`, until the text with its NUL does not fit (ldms.c:458, 467, 472): what would be written, so that its
length is what is returned. -/
def printAll (size : Nat) : List Text → Text → Text
  | [], acc => acc
  | p :: ps, acc => if (acc ++ p).length ≥ size then acc ++ p else printAll size ps (acc ++ p)

/-- `__ldms_format_set_meta_as_json` (ldms.c:368-497): the text printed, if it is shorter than the buffer. -/
def fmtMeta (s : SetRec) (comma : Bool) (size : Nat) : Text :=
  printAll size
    (((if comma then ',' else ' ') :: headText s) :: (infoPieces (infos s) ++ [[']', '}']])) []

/-! ## The directory reply -/

/-- A reply (`struct ldms_dir_reply`, ldms_xprt.h:279-284, and the `rc` of its header). -/
structure Msg where
  rc : Nat
  more : Bool
  text : Text
deriving DecidableEq

def ENOMEM : Nat := 12

/-- ldms_xprt.c:884-885 -/
def header : Text := "{ \"directory\" : [".toList

def closing : Text := [']', '}']

/-- The loop of `process_dir_request` (ldms_xprt.c:870-947) over the names, `none` for a set that is gone, with
what is in the buffer: the replies sent and whether the loop has ended.  `acc` is `ldms_access_check` for
reading (ldms_xprt.c:893), `L` is `len - hdrlen`, the room for text in a message; it is taken to be more
than 20, so that the sizes computed are not negative.  The number bounds the iterations, `restart`
included. -/
def dirLoop (acc : SetRec → Bool) (L : Nat) : Nat → List (Option SetRec) → Text → List Msg × Bool
  | 0, _, _ => ([], false)
  | _ + 1, [], _ => ([], true)
  | n + 1, none :: rest, cur => dirLoop acc L n rest cur
  | n + 1, some s :: rest, cur =>
    let cur0 := if cur = [] then header else cur
    if cur = [] ∧ header.length ≥ L then ([⟨ENOMEM, false, []⟩], true)
    else
      let cur1 := if acc s then cur0 ++ fmtMeta s (cur ≠ []) (L - cur0.length - 3) else cur0
      if cur1.length ≥ L - 3 then
        let p := dirLoop acc L n (some s :: rest) []
        (⟨0, true, cur ++ closing⟩ :: p.1, p.2)
      else if rest = [] then
        if (cur1 ++ closing).length ≥ L - 3 then ([⟨ENOMEM, false, []⟩], true)
        else ([⟨0, false, cur1 ++ closing⟩], true)
      else dirLoop acc L n rest cur1

/-- `process_dir_request` (ldms_xprt.c:796-983). -/
def dirRequest (acc : SetRec → Bool) (L : Nat) (fuel : Nat) (names : List (Option SetRec)) :
    List Msg × Bool :=
  if names = [] then ([⟨0, false, header ++ closing⟩], true) else dirLoop acc L fuel names []

/-! ## Updates of the directory -/

/-- The loop of `__ldms_format_set_for_dir` (ldms_xprt.c:551-571): a larger buffer until the text fits. -/
def formatFor (s : SetRec) : Nat → Nat → Text
  | 0, _ => []
  | n + 1, size =>
    let t := fmtMeta s false size
    if t.length ≥ size then formatFor s n (size + 4096) else t

/-- A peer: whether it is connected, whether it asked for updates (`remote_dir_xid`), the most it can be
sent, and what it may read. -/
structure Peer where
  connected : Bool
  notify : Bool
  msgMax : Nat
  acc : SetRec → Bool

/-- The size of the headers of a reply. -/
def hdrLen : Nat := 32

/-- `send_dir_update` (ldms_xprt.c:454-508): what is sent to a peer.  The text is sent with its NUL, which the peer's parser
does not come to. -/
def sendUpdate (p : Peer) (json : Text) : Option Msg :=
  if !p.connected then none
  else if hdrLen + (21 + json.length + 1) ≥ p.msgMax then none
  else some ⟨0, false, header ++ ' ' :: json ++ ' ' :: closing⟩

/-- `dir_update` (ldms_xprt.c:573-592). -/
def dirUpdate (peers : List Peer) (fuel : Nat) (s : SetRec) : List (Option Msg) :=
  peers.map fun p => if p.notify then sendUpdate p (formatFor s fuel 4096) else none

/-! ## The peer -/

/-- `struct ldms_dir_set_s` (ldms.h:1456-1475) -/
structure DirSet where
  name : Text
  schema : Text
  digest : Text
  flags : Text
  metaSize : Nat
  dataSize : Nat
  heapSize : Nat
  uid : Nat
  gid : Nat
  perm : Text
  card : Int
  arrayCard : Int
  metaGn : Nat
  dataGn : Nat
  sec : Nat
  usec : Nat
  dsec : Nat
  dusec : Nat
  info : List (Text × Text)
deriving DecidableEq

/-- `json_value_find(e, k)`; `none` if there is none or `e` is not a dictionary. -/
def find (e : Ent) (k : String) : Option Ent :=
  match e with
  | .dict d => valueFind d k.toList
  | _ => none

/-- `json_value_str(e)->str` (ovis_json.c:671-675); `none` if the program is stopped. -/
def strOf : Option Ent → Option Text
  | some (.str s) => some s
  | _ => none

/-- `json_value_int` (ovis_json.c:653-657); `none` if the program is stopped. -/
def intOf : Option Ent → Option Int
  | some (.int v) => some v
  | _ => none

/-- The digest and the heap size may be left out (ldms_xprt.c:1912-1916, 1927-1931). -/
def digestOf : Option Ent → Option Text
  | none => some []
  | e => strOf e

def heapOf : Option Ent → Option Int
  | none => some 0
  | e => intOf e

/-- A number of 32 bits without sign. -/
def toU32 (v : Int) : Nat := (v % 2 ^ 32).toNat

/-- A number of 64 bits without sign. -/
def toU64 (v : Int) : Nat := (v % 2 ^ 64).toNat

/-- A number of 32 bits with sign. -/
def toI32 (v : Int) : Int := if v % 2 ^ 32 < 2 ^ 31 then v % 2 ^ 32 else v % 2 ^ 32 - 2 ^ 32

/-- The loop of `__process_dir_set_info` (ldms_xprt.c:1785-1800) -/
def decodeInfos : List Ent → Option (List (Text × Text))
  | [] => some []
  | e :: l =>
    match strOf (find e "key"), strOf (find e "value"), decodeInfos l with
    | some k, some v, some r => some ((k, v) :: r)
    | _, _, _ => none

/-- The elements of a list; `none` if the program is stopped. -/
def listOf : Option Ent → Option (List Ent)
  | some (.list l) => some l
  | _ => none

/-- The body of the loop of `__process_dir_reply` (ldms_xprt.c:1904-1990); `none` if the program is
stopped. -/
def decodeSet (e : Ent) : Option DirSet :=
  match strOf (find e "name"), strOf (find e "schema"), digestOf (find e "digest"), strOf (find e "flags"),
    strOf (find e "perm") with
  | some name, some schema, some digest, some flags, some perm =>
    match intOf (find e "meta_size"), intOf (find e "data_size"), heapOf (find e "heap_size"),
      intOf (find e "uid"), intOf (find e "gid"), intOf (find e "card"), intOf (find e "array_card"),
      intOf (find e "meta_gn"), intOf (find e "data_gn") with
    | some ms, some ds, some hs, some uid, some gid, some card, some acard, some mgn, some dgn =>
      match find e "timestamp", find e "duration", (listOf (find e "info")).bind decodeInfos with
      | some ts, some dur, some info =>
        match intOf (find ts "sec"), intOf (find ts "usec"), intOf (find dur "sec"), intOf (find dur "usec") with
        | some s, some u, some ds', some du =>
          some ⟨name, schema, digest, flags, toU64 ms, toU64 ds, toU64 hs, toU32 uid, toU32 gid, perm,
            toI32 card, toI32 acard, toU64 mgn, toU64 dgn, toU32 s, toU32 u, toU32 ds', toU32 du, info⟩
        | _, _, _, _ => none
      | _, _, _ => none
    | _, _, _, _, _, _, _, _, _ => none
  | _, _, _, _, _ => none

def decodeAll : List Ent → Option (List DirSet)
  | [] => some []
  | e :: l =>
    match decodeSet e, decodeAll l with
    | some s, some r => some (s :: r)
    | _, _ => none

/-- What the application is told: a listing, or an error (its number is that of the reply; 0 stands for a text
that could not be read).  `none` if the program is stopped. -/
inductive Told
  | listing (more : Bool) (sets : List DirSet)
  | error (rc : Nat)

/-- `__process_dir_reply` (ldms_xprt.c:1844-2006) -/
def processReply (m : Msg) : Option Told :=
  if m.rc ≠ 0 then some (.error m.rc)
  else
    match parse m.text with
    | none => some (.error 0)
    | some e =>
      match find e "directory" with
      | none => some (.error 0)
      | some (.list l) => (decodeAll l).map (.listing m.more)
      | some _ => none

end Verif.Dir
