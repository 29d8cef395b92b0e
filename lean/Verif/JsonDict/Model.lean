import Verif.Htbl.Model

/-!
# JSON dictionaries (`lib/src/ovis_json/ovis_json.c`)

A name is a list of non-zero bytes.  An attribute is named by a number (its address); what it holds is not
looked at.
-/

namespace Verif.JsonDict

open Verif.Htbl

abbrev Name := List Nat

/-- one round of `default_hash_fn` -/
def fnvStep (h b : Nat) : Nat := (h ^^^ b) * 0x100000001b3 % 2 ^ 64

/-- `default_hash_fn` (htbl.c:57-67), over the bytes of the name -/
def fnv (k : Name) : Nat := k.foldl fnvStep 0xDEADC0DEBEEFDEAD

/-- `strncmp(a, b, n) == 0` on C strings -/
def strncmpEq : Name → Name → Nat → Bool
  | _, _, 0 => true
  | [], [], _ + 1 => true
  | [], _ :: _, _ + 1 => false
  | _ :: _, [], _ + 1 => false
  | a :: as, b :: bs, n + 1 => a = b && strncmpEq as bs n

/-- `attr_cmp` (ovis_json.c:146-153) called by `htbl_find` with `key_len = strlen(name)` -/
def attrCmp (entKey name : Name) : Bool := strncmpEq entKey name name.length

abbrev Dict := Tbl Name

/-- `json_dict_new` (ovis_json.c:157-171) -/
def new : Dict := alloc 23

/-- `json_attr_find` (ovis_json.c:122-137) -/
def attrFind (d : Dict) (name : Name) : Option (Ent Name) := find fnv attrCmp d name

/-- `json_attr_add` with `__attr_add` (ovis_json.c:506-534): an attribute found under the name is removed and
freed, then the new one is inserted.  `id` is the address of the new attribute. -/
def attrAdd (d : Dict) (name : Name) (id : Nat) : Dict :=
  match attrFind d name with
  | some a => ins fnv (del fnv d a) ⟨id, name⟩
  | none => ins fnv d ⟨id, name⟩

inductive Rc where | ok | enoent
deriving DecidableEq, Repr

/-- `json_attr_rem` (ovis_json.c:551-561) -/
def attrRem (d : Dict) (name : Name) : Dict × Rc :=
  match attrFind d name with
  | some a => (del fnv d a, .ok)
  | none => (d, .enoent)

/-- `json_attr_count` (ovis_json.c:139-144) -/
def attrCount (d : Dict) : Int := d.count

end Verif.JsonDict
