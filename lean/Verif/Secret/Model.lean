/-!
# Model: the shared secret of the authentication `ovis`

`lib/src/ovis_auth/auth.c` and the opening of `ldms/src/auth/ldms_auth_ovis.c`: where the secret word is looked for, how it is read from
the file, and how a challenge and the word give the text that is exchanged.

Text is a list of bytes.  Failures of memory and messages to the log are left out.
-/

namespace Verif.Secret

abbrev Str := List Nat

def EINVAL : Nat := 22
def ENOENT : Nat := 2
def ENAMETOOLONG : Nat := 36

/-- What is outside: `stat` gives an error or the mode of a path, `fopen` gives an error or the bytes of the file.  They are two calls: the
file may be another one the second time. -/
structure Fs where
  stat : Str → Except Nat Nat
  opened : Str → Except Nat Str

/-! ## The file -/

/-- `fgets` with room for `n` bytes: up to the end of the line, or to the end of the room; with what is left -/
def cut : Nat → Str → Str × Str
  | 0, b => ([], b)
  | _ + 1, [] => ([], [])
  | n + 1, c :: b => if c = 10 then ([10], b) else (c :: (cut n b).1, (cut n b).2)

theorem cut_le : ∀ (n : Nat) (b : Str), (cut n b).2.length ≤ b.length
  | 0, b => Nat.le_refl _
  | n + 1, [] => Nat.le_refl _
  | n + 1, c :: b => by
    rw [cut]
    split
    · simp
    · have := cut_le n b
      simp only [List.length_cons]
      omega

/-- `"# \t\n"`, auth.c:171 -/
def delim (c : Nat) : Bool := c == 35 || c == 32 || c == 9 || c == 10

/-- the first word that `strtok_r` gives, auth.c:171; the empty text stands for NULL -/
def token (s : Str) : Str := (s.dropWhile delim).takeWhile fun c => !delim c

/-- `"secretword="` -/
def key : Str := [115, 101, 99, 114, 101, 116, 119, 111, 114, 100, 61]

/-- the loop over the lines, auth.c:161-186; `MAX_LINE_LEN` is 528 (auth.h:64, 82), one byte of which is for the NUL -/
def scan (b : Str) : Except Nat Str :=
  match b with
  | [] => .error ENOENT
  | c :: t =>
    if c = 35 ∨ c = 10 then scan (cut 527 (c :: t)).2
    else
      let s := (cut 527 (c :: t)).1.takeWhile (· ≠ 0)
      if key.isPrefixOf s then
        (if token (s.drop 11) = [] then .error EINVAL else .ok (token (s.drop 11)))
      else scan (cut 527 (c :: t)).2
termination_by b.length
decreasing_by
  all_goals
    simp only [cut]
    split
    · simp
    · have := cut_le 526 t
      simp only [List.length_cons]
      omega

/-- `ovis_auth_get_secretword`, auth.c:115-212; 63 is 077, the lengths are 8 and 512 + 1 -/
def getSecret (fs : Fs) (path : Option Str) : Except Nat Str :=
  match path with
  | none => .error EINVAL
  | some p =>
    if p.head? ≠ some 47 then .error EINVAL
    else match fs.stat p with
      | .error e => .error e
      | .ok mode =>
        if mode &&& 63 ≠ 0 then .error EINVAL
        else match fs.opened p with
          | .error e => .error e
          | .ok b => match scan b with
            | .error e => .error e
            | .ok s => if s.length < 8 ∨ 512 + 1 < s.length then .error EINVAL else .ok s

/-! ## Where the file is -/

/-- `__auth_ovis_new`, ldms_auth_ovis.c:131-208: the value of `conf`, that of the environment (`LDMS_AUTH_FILE`), the directory of the user
from the table of users, and the path of the system's file, which is known when the program is built.  `buf` is the size of `conf`. -/
def newPath (fs : Fs) (conf env home : Option Str) (sys : Str) (buf : Nat) : Except Nat Str :=
  match conf.orElse fun _ => env with
  | some v => if buf ≤ v.length then .error ENAMETOOLONG else .ok v
  | none => match home with
    | none => last
    | some h =>
      if buf ≤ (h ++ userFile).length then .error ENAMETOOLONG
      else match fs.stat (h ++ userFile) with
        | .ok _ => .ok (h ++ userFile)
        | .error _ => last
where
  /-- `"/.ldmsauth.conf"` -/
  userFile : Str := [47, 46, 108, 100, 109, 115, 97, 117, 116, 104, 46, 99, 111, 110, 102]
  last : Except Nat Str :=
    if buf ≤ sys.length then .error ENAMETOOLONG
    else match fs.stat sys with
      | .ok _ => .ok sys
      | .error _ => .error ENOENT

/-- the secret of a new `ovis` authentication, ldms_auth_ovis.c:195-202 -/
def authNew (fs : Fs) (conf env home : Option Str) (sys : Str) : Except Nat Str :=
  match newPath fs conf env home sys 4096 with
  | .error e => .error e
  | .ok p => getSecret fs (some p)

/-! ## Challenge and reply -/

/-- `ovis_auth_gen_challenge`, auth.c:74-95: the two numbers of `random_r` are those of the seed, and the seed is the nanoseconds of the clock -/
def challenge (rnd : Nat → Nat × Nat) (nsec : Nat) : Nat := ((rnd nsec).1 <<< 32) ^^^ (rnd nsec).2

/-- `PRIu64` -/
def dec (n : Nat) : Str := if n < 10 then [48 + n] else dec (n / 10) ++ [48 + n % 10]

/-- `%02x` of a byte -/
def hexDigit (n : Nat) : Nat := if n < 10 then 48 + n else 87 + n
def hexByte (b : Nat) : Str := [hexDigit (b / 16), hexDigit (b % 16)]

/-- `ovis_auth_encrypt_password`, auth.c:243-286; `H` is SHA-224 -/
def encrypt (H : Str → List Nat) (c : Nat) (s : Str) : Str := (H (dec c ++ s)).flatMap hexByte

/-- `ovis_auth_pack_challenge`, auth.c:97-103, with the bytes in their order in memory -/
def be32 (n : Nat) : List Nat := [n / 2 ^ 24 % 256, n / 2 ^ 16 % 256, n / 2 ^ 8 % 256, n % 256]
def pack (c : Nat) : List Nat × List Nat := (be32 (c / 2 ^ 32 % 2 ^ 32), be32 (c % 2 ^ 32))

/-- `ovis_auth_unpack_challenge`, auth.c:105-112 -/
def ntoh : List Nat → Nat
  | [a, b, c, d] => ((a * 256 + b) * 256 + c) * 256 + d
  | _ => 0
def unpack (p : List Nat × List Nat) : Nat := (ntoh p.1 <<< 32) ||| ntoh p.2

/-! ## The password of rabbit -/

/-- What `ovis_get_rabbit_secretword` does: an error, the text that is in the buffer, or a use of memory outside of the buffer. -/
inductive Rabbit where
  | error (rc : Nat)
  | text (s : Str)
  | outside
  deriving DecidableEq, Repr

/-- `isspace` -/
def space (c : Nat) : Bool := c == 32 || (9 ≤ c && c ≤ 13)

/-- the loop at the end, auth.c:233-237, on the text from its end; if all is space the byte before the buffer is read -/
def trim : Str → Option Str
  | [] => none
  | c :: cs => if space c then trim cs else some (c :: cs)

/-- `ovis_get_rabbit_secretword`, auth.c:214-240: the comparison of `strlen(sw) >= buflen` is one of unsigned numbers, as is the size for
`strncpy`, which fills the buffer up. -/
def rabbit (fs : Fs) (file : Option Str) (buflen : Int) : Rabbit :=
  match file with
  | none => .error EINVAL
  | some f =>
    if buflen = 0 ∨ 512 ≤ buflen then .error EINVAL
    else match getSecret fs (some f) with
      | .error e => .error e
      | .ok sw =>
        if (buflen % 2 ^ 64).toNat ≤ sw.length then .error EINVAL
        else if buflen < 0 then .outside
        else match trim sw.reverse with
          | none => .outside
          | some t => .text t.reverse

end Verif.Secret
