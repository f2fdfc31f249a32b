import Verif.Spec.Compressed

/-!
# Opening files for reading: `file.c`, `kissat_has_suffix` of `utilities.c`

Strings are lists of characters without the final zero.
-/

namespace Verif.Model.File

/-- What the operating system says. -/
structure System where
  /-- `kissat_file_readable` (file.c:21-30): `stat` and `access` succeed. -/
  readable : List Nat → Bool
  /-- What can be read after `fopen (path, "r")`; `none` if it fails. -/
  content : List Nat → Option (List Nat)
  /-- `getenv ("PATH")`. -/
  path : Option (List Nat)
  /-- `popen (cmd, "r")` succeeds. -/
  popen : List Nat → Bool

/-- The last loop of `kissat_has_suffix` and its result (utilities.c:12-15); the arguments are `p - str` and
`q - suffix`. -/
def hasSuffixLoop (str suffix : List Nat) : Nat → Nat → Bool
  | p + 1, q + 1 => if str.getD p 0 ≠ suffix.getD q 0 then false else hasSuffixLoop str suffix p q
  | _, q => q == 0

/-- `kissat_has_suffix` (utilities.c:5-16). -/
def hasSuffix (str suffix : List Nat) : Bool := hasSuffixLoop str suffix str.length suffix.length

/-- The loop of `match_signature` (file.c:139-140): the signature without `EOF` and what is still to be
read from the file. -/
def matchLoop : List Nat → List Nat → Bool
  | [], _ => true
  | _ :: _, [] => false
  | s :: sig, c :: content => if c = s then matchLoop sig content else false

/-- `match_signature` (file.c:133-143). -/
def matchSignature (w : System) (path sig : List Nat) : Bool :=
  match w.content path with
  | none => false
  | some content => matchLoop sig content

/-- The loop of `kissat_find_executable` (file.c:107-121) over the directories: `dir` is the part of the
current one that was read, the other list is still to be read. -/
def findLoop (w : System) (name : List Nat) (dir : List Nat) : List Nat → Bool
  | [] => w.readable (dir ++ 47 :: name)
  | c :: rest =>
    if c ≠ 58 then findLoop w name (dir ++ [c]) rest
    else if w.readable (dir ++ 47 :: name) then true
    else findLoop w name [] rest

/-- `kissat_find_executable` (file.c:95-124).  Allocations succeed. -/
def findExecutable (w : System) (name : List Nat) : Bool :=
  match w.path with
  | none => false
  | some environment => findLoop w name [] environment

/-- `sprintf (cmd, fmt, path)` for a format string in which the only directive is `%s`. -/
def sprintf : List Nat → List Nat → List Nat
  | 37 :: 115 :: fmt, path => path ++ sprintf fmt path
  | c :: fmt, path => c :: sprintf fmt path
  | [], _ => []

/-- Result of opening a file: a pipe from a command, the file itself, failure or a write beyond the
end of the allocated memory. -/
inductive Opened
  | pipe (cmd : List Nat)
  | plain
  | failed
  | overflow
  deriving DecidableEq, Repr

/-- `open_pipe` for reading (file.c:147-168). -/
def openPipe (w : System) (fmt path : List Nat) : Opened :=
  let name := fmt.takeWhile (· ≠ 32)
  if !findExecutable w name then .failed
  else
    let cmd := sprintf fmt path
    if cmd.length + 1 > fmt.length + path.length then .overflow
    else if w.popen cmd then .pipe cmd else .failed

/-- `read_pipe` (file.c:170-176). -/
def readPipe (w : System) (fmt sig path : List Nat) : Opened :=
  if !w.readable path then .failed
  else if !matchSignature w path sig then .failed
  else openPipe w fmt path

/-- The list of `READ_PIPE` (file.c:243-248): suffix, command and signature (file.c:126-131). -/
def pipes : List (List Nat × List Nat × List Nat) := [
  (Spec.chars ".bz2", Spec.chars "bzip2 -c -d %s", [0x42, 0x5A, 0x68]),
  (Spec.chars ".gz", Spec.chars "gzip -c -d %s", [0x1F, 0x8B]),
  (Spec.chars ".lzma", Spec.chars "lzma -c -d %s", [0x5D, 0x00, 0x00, 0x80, 0x00]),
  (Spec.chars ".7z", Spec.chars "7z x -so %s 2>/dev/null", [0x37, 0x7A, 0xBC, 0xAF, 0x27, 0x1C]),
  (Spec.chars ".xz", Spec.chars "xz -c -d %s", [0xFD, 0x37, 0x7A, 0x58, 0x5A, 0x00, 0x00]),
  (Spec.chars ".Z", Spec.chars "gzip -c -d %s", [0x1F, 0x9D, 0x90])]

/-- `kissat_open_to_read_file` (file.c:227-260) with the rest of the list of `READ_PIPE`. -/
def openLoop (w : System) (path : List Nat) : List (List Nat × List Nat × List Nat) → Opened
  | [] => if (w.content path).isSome then .plain else .failed
  | (suffix, fmt, sig) :: rest =>
    if hasSuffix path suffix then
      match readPipe w fmt sig path with
      | .failed => openLoop w path rest
      | r => r
    else openLoop w path rest

/-- `kissat_open_to_read_file` (file.c:227-260). -/
def openToRead (w : System) (path : List Nat) : Opened := openLoop w path pipes

/-- `kissat_looks_like_a_compressed_file` (file.c:209-223), used in builds without pipes. -/
def looksLikeCompressed (w : System) (path : List Nat) : Bool :=
  pipes.any fun (suffix, _, sig) => hasSuffix path suffix && matchSignature w path sig

end Verif.Model.File
