/-
Specification of mtree's output, from mtree(5): what a tree of files looks like as text, in all layouts.
-/
import Verif.Basic.CStr

namespace Verif.Spec.Mtree
open Verif

/-- The entries of a directory, one after the other. -/
inductive Tree where
  | nil
  /-- a file, with its digest -/
  | file (name digest : Bytes) (rest : Tree)
  /-- a link, device, ... -/
  | other (name : Bytes) (rest : Tree)
  | dir (name : Bytes) (sub rest : Tree)

/-- A file: its directory, its name, its digest. -/
structure File where
  dir : Bytes
  name : Bytes
  digest : Bytes
  deriving DecidableEq, Repr

/-- The files in the directory `d` and below. -/
def filesIn (d : Bytes) : Tree → List File
  | .nil => []
  | .file n g rest => ⟨d, n, g⟩ :: filesIn d rest
  | .other _ rest => filesIn d rest
  | .dir n sub rest => filesIn (d ++ b!"/" ++ n) sub ++ filesIn d rest

/-- The paths of the directories below `d`. -/
def dirsIn (d : Bytes) : Tree → List Bytes
  | .nil => []
  | .file _ _ rest => dirsIn d rest
  | .other _ rest => dirsIn d rest
  | .dir n sub rest => (d ++ b!"/" ++ n) :: (dirsIn (d ++ b!"/" ++ n) sub ++ dirsIn d rest)

/-- What mtree prints as the name of an entry. -/
def Name (n : Bytes) : Prop := n ≠ [] ∧ n ≠ b!".." ∧ ∀ c ∈ n, isSpace c = false ∧ c ≠ 0 ∧ c ≠ 47

/-- A keyword that is neither the type nor the digest. -/
def Plain (w : Bytes) : Prop := ¬ b!"type=" <+: w ∧ ¬ b!"sha256digest=" <+: w

/-- The lines for a tree, each a list of words: `/set` lines, in which the last type given counts, can be anywhere; the type
can be left out if it is the one that was set.  `t` and `t'` are what was set before and after; `true` is for directories. -/
inductive Lines : Bool → Tree → List (List Bytes) → Bool → Prop
  | nil (t : Bool) : Lines t .nil [] t
  | setNone {t t' : Bool} {x : Tree} {ls : List (List Bytes)} (ws : List Bytes) : (∀ w ∈ ws, w ≠ b!"type=dir" ∧ w ≠ b!"type=file") →
      Lines t x ls t' → Lines t x ((b!"/set" :: ws) :: ls) t'
  | setFile {t t' : Bool} {x : Tree} {ls : List (List Bytes)} (u v : List Bytes) : (∀ w ∈ v, w ≠ b!"type=dir") →
      Lines false x ls t' → Lines t x ((b!"/set" :: (u ++ b!"type=file" :: v)) :: ls) t'
  | setDir {t t' : Bool} {x : Tree} {ls : List (List Bytes)} (u v : List Bytes) : (∀ w ∈ v, w ≠ b!"type=file") →
      Lines true x ls t' → Lines t x ((b!"/set" :: (u ++ b!"type=dir" :: v)) :: ls) t'
  | file {t t' : Bool} {rest : Tree} {ls : List (List Bytes)} {n g : Bytes} (ws : List Bytes) :
      (∀ w ∈ ws, w = b!"type=file" ∨ w = b!"sha256digest=" ++ g ∨ Plain w) → b!"sha256digest=" ++ g ∈ ws → (t = false ∨ b!"type=file" ∈ ws) →
      Lines t rest ls t' → Lines t (.file n g rest) ((n :: ws) :: ls) t'
  | other {t t' : Bool} {rest : Tree} {ls : List (List Bytes)} {n : Bytes} (u v : List Bytes) (k : Bytes) : (∀ w ∈ u, Plain w) →
      k ≠ b!"dir" → k ≠ b!"file" → Lines t rest ls t' → Lines t (.other n rest) ((n :: (u ++ (b!"type=" ++ k) :: v)) :: ls) t'
  | dir {t t1 t' : Bool} {sub rest : Tree} {l1 l2 : List (List Bytes)} {n : Bytes} (ws : List Bytes) :
      (∀ w ∈ ws, w = b!"type=dir" ∨ Plain w) → (t = true ∨ b!"type=dir" ∈ ws) →
      Lines t sub l1 t1 → Lines t1 rest l2 t' → Lines t (.dir n sub rest) ((n :: ws) :: (l1 ++ [b!".."] :: l2)) t'

/-- What can be between two words: a blank, a tab, or a backslash at the end of a line. -/
inductive Gap where
  | blank | tab | cont
  deriving DecidableEq, Repr

def Gap.text : Gap → Bytes
  | .blank => [32]
  | .tab => [9]
  | .cont => [92, 10]

def gapText (l : List Gap) : Bytes := l.flatMap Gap.text

/-- The words, each with what follows it. -/
def wordsText : List (Bytes × List Gap) → Bytes
  | [] => []
  | (w, g) :: l => w ++ gapText g ++ wordsText l

/-- A word. -/
def Word (w : Bytes) : Prop := w ≠ [] ∧ ∀ c ∈ w, isSpace c = false ∧ c ≠ 0

/-- All the words but the last are followed by a gap; what is at the end of the line is no backslash. -/
def Spaced : List (Bytes × List Gap) → Prop
  | [] => True
  | [(w, g)] => Word w ∧ (g = [] → w.getLast? ≠ some 92)
  | (w, g) :: l => Word w ∧ g ≠ [] ∧ Spaced l

/-- One line (over several lines of the text, if there are backslashes), with its words.  A blank line has none. -/
inductive Line : List Bytes → Bytes → Prop
  | mk (lead : List Gap) (l : List (Bytes × List Gap)) : Spaced l → Line (l.map (·.1)) (gapText lead ++ wordsText l ++ [10])

/-- Lines, with blank lines in between; no line has more than `max` bytes. -/
inductive Text (max : Nat) : List (List Bytes) → List Bytes → Prop
  | nil : Text max [] []
  | blank {ls : List (List Bytes)} {ts : List Bytes} {t : Bytes} : Line [] t → t.length ≤ max → Text max ls ts → Text max ls (t :: ts)
  | line {ls : List (List Bytes)} {ts : List Bytes} {ws : List Bytes} {t : Bytes} : Line ws t → t.length ≤ max → Text max ls ts → Text max (ws :: ls) (t :: ts)

/-- All names in a tree are names. -/
def Named : Tree → Prop
  | .nil => True
  | .file n _ rest => Name n ∧ Named rest
  | .other n rest => Name n ∧ Named rest
  | .dir n sub rest => Name n ∧ Named sub ∧ Named rest

/-- A whole output of mtree for a directory with these entries. -/
def Output (max : Nat) (x : Tree) (text : Bytes) : Prop :=
  ∃ ls ts t, Lines false (.dir b!"." x .nil) ls t ∧ Named x ∧ Text max ls ts ∧ text = ts.flatten

end Verif.Spec.Mtree
