/-!
# Compressed files: the small specification for C56
-/

namespace Verif.Spec

/-- Characters of a string. -/
def chars (s : String) : List Nat := s.toList.map Char.toNat

/-- A compressed format: what names of such files end with, what such files start with, the program
which uncompresses them and its arguments before and after the name. -/
structure Format where
  suffix : List Nat
  signature : List Nat
  program : List Nat
  before : List Nat
  after : List Nat
  deriving DecidableEq

/-- The formats known. -/
def formats : List Format := [
  ⟨chars ".bz2", [0x42, 0x5A, 0x68], chars "bzip2", chars " -c -d ", []⟩,
  ⟨chars ".gz", [0x1F, 0x8B], chars "gzip", chars " -c -d ", []⟩,
  ⟨chars ".lzma", [0x5D, 0x00, 0x00, 0x80, 0x00], chars "lzma", chars " -c -d ", []⟩,
  ⟨chars ".7z", [0x37, 0x7A, 0xBC, 0xAF, 0x27, 0x1C], chars "7z", chars " x -so ", chars " 2>/dev/null"⟩,
  ⟨chars ".xz", [0xFD, 0x37, 0x7A, 0x58, 0x5A, 0x00, 0x00], chars "xz", chars " -c -d ", []⟩,
  ⟨chars ".Z", [0x1F, 0x9D, 0x90], chars "gzip", chars " -c -d ", []⟩]

/-- Name and content of a file are those of a file in the format. -/
def Format.Matches (f : Format) (path content : List Nat) : Prop :=
  f.suffix <:+ path ∧ f.signature <+: content

/-- The command to uncompress the file. -/
def Format.command (f : Format) (path : List Nat) : List Nat := f.program ++ f.before ++ path ++ f.after

/-- The directories in the environment variable `PATH`, which are separated by colons. -/
def SearchPath (environment : Option (List Nat)) (dirs : List (List Nat)) : Prop :=
  dirs = [] ∧ environment = none ∨
  ∃ text, environment = some text ∧ text = [58].intercalate dirs ∧ dirs ≠ [] ∧ ∀ d ∈ dirs, 58 ∉ d

end Verif.Spec
