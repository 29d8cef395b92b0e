import Verif.BlobFile.Model

/-!
# What is in the files (Plugin_blob_stream_writer.man, OUTPUT FORMAT)
-/

namespace Verif.BlobFile

/-- a little-endian number -/
def number : List Nat → Nat
  | [] => 0
  | b :: bs => b + 256 * number bs

/-- numbers of 64 bits -/
def numbers : List Nat → List Nat
  | a :: b :: c :: d :: e :: f :: g :: h :: l => number [a, b, c, d, e, f, g, h] :: numbers l
  | _ => []

/-- the pieces of a file that begin at the offsets: each ends where the next begins, the last at the end -/
def pieces (dat : List Nat) : List Nat → List (List Nat)
  | [] => []
  | [o] => [dat.drop o]
  | o :: p :: os => (dat.drop o).take (p - o) :: pieces dat (p :: os)

/-- a reader: both files begin with their words, "blobdat" and "bloboff", and the messages are the pieces at the offsets -/
def readFiles (dat off : List Nat) : Option (List (List Nat)) :=
  if dat.take 8 = [98, 108, 111, 98, 100, 97, 116, 0] ∧ off.take 8 = [98, 108, 111, 98, 111, 102, 102, 0] then some (pieces dat (numbers (off.drop 8))) else none

/-- pairs of numbers -/
def times : List Nat → List (Nat × Nat)
  | a :: b :: l => (a, b) :: times l
  | _ => []

/-- messages of an opening, the oldest first -/
def Gen.messages (g : Gen) : List Msg := g.msgs.reverse

/-- bytes of an opening's data file -/
def Gen.size (g : Gen) : Nat := 8 + (g.msgs.map fun m => m.data.length).sum

/-- where messages begin, if the first begins at `b` -/
def starts (b : Nat) : List (List Nat) → List Nat
  | [] => []
  | d :: ds => b :: starts (b + d.length) ds

end Verif.BlobFile
