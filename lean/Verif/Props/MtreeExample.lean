/-
Property C63: an example, and outputs for which it is false.
-/
import Verif.Props.Mtree

namespace Verif.Props
open Verif Mtree
open _root_.Verif.Spec.Mtree

namespace MtreeExample

def dA : Bytes := List.replicate 64 97
def dB : Bytes := List.replicate 64 98

/-- Two files, an empty one, a link, and a directory. -/
def tree : Tree := .file b!"a" dA (.file b!"e" emptyDigest (.other b!"l" (.dir b!"sub" (.file b!"b" dB .nil) .nil)))

def text : Bytes :=
  b!"/set type=file uid=0\n. type=dir\n    a size=5 \\\n        sha256digest=" ++ dA ++ b!"\n    e sha256digest=" ++ emptyDigest ++
  b!"\n    l type=link link=a\n\n    sub\ttype=dir\n        b sha256digest=" ++ dB ++ b!"\n    ..\n..\n"

def linesOf : List (List Bytes) :=
  [[b!"/set", b!"type=file", b!"uid=0"], [b!".", b!"type=dir"], [b!"a", b!"size=5", b!"sha256digest=" ++ dA], [b!"e", b!"sha256digest=" ++ emptyDigest],
   [b!"l", b!"type=link", b!"link=a"], [b!"sub", b!"type=dir"], [b!"b", b!"sha256digest=" ++ dB], [b!".."], [b!".."]]

instance (w : Bytes) : Decidable (Plain w) := inferInstanceAs (Decidable (_ ∧ _))
instance (w : Bytes) : Decidable (Word w) := inferInstanceAs (Decidable (_ ∧ _))

instance decSpaced : (l : List (Bytes × List Gap)) → Decidable (Spaced l)
  | [] => isTrue trivial
  | [(w, g)] => inferInstanceAs (Decidable (Word w ∧ (g = [] → w.getLast? ≠ some 92)))
  | (w, g) :: q :: l =>
    have := decSpaced (q :: l)
    inferInstanceAs (Decidable (Word w ∧ g ≠ [] ∧ Spaced (q :: l)))

def b1 : List Gap := [.blank]
def b4 : List Gap := [.blank, .blank, .blank, .blank]
def b8 : List Gap := b4 ++ b4

def textsOf : List Bytes :=
  [b!"/set type=file uid=0\n", b!". type=dir\n", b!"    a size=5 \\\n        sha256digest=" ++ dA ++ b!"\n", b!"    e sha256digest=" ++ emptyDigest ++ b!"\n",
   b!"    l type=link link=a\n", b!"\n", b!"    sub\ttype=dir\n", b!"        b sha256digest=" ++ dB ++ b!"\n", b!"    ..\n", b!"..\n"]

theorem lines : Lines false (.dir b!"." tree .nil) linesOf false := by
  refine .setFile [] [b!"uid=0"] (by decide) ?_
  refine .dir (l1 := [[b!"a", b!"size=5", b!"sha256digest=" ++ dA], [b!"e", b!"sha256digest=" ++ emptyDigest],
    [b!"l", b!"type=link", b!"link=a"], [b!"sub", b!"type=dir"], [b!"b", b!"sha256digest=" ++ dB], [b!".."]]) (l2 := []) [b!"type=dir"] (by decide) (by decide) ?_ (.nil _)
  refine .file [b!"size=5", b!"sha256digest=" ++ dA] (by decide) (by decide) (by decide) ?_
  refine .file [b!"sha256digest=" ++ emptyDigest] (by decide) (by decide) (by decide) ?_
  refine .other [] [b!"link=a"] b!"link" (by decide) (by decide) (by decide) ?_
  refine .dir (l1 := [[b!"b", b!"sha256digest=" ++ dB]]) (l2 := []) [b!"type=dir"] (by decide) (by decide) ?_ (.nil _)
  exact .file [b!"sha256digest=" ++ dB] (by decide) (by decide) (by decide) (.nil _)

theorem named : Named tree := by
  exact ⟨by unfold Name; decide, by unfold Name; decide, by unfold Name; decide, by unfold Name; decide, ⟨by unfold Name; decide, trivial⟩, trivial⟩

/-- C63, the hypotheses hold for the example. -/
theorem output : Output 8191 tree text := by
  suffices h : ∃ ts, Text 8191 linesOf ts ∧ text = ts.flatten by
    obtain ⟨ts, h1, h2⟩ := h
    exact ⟨linesOf, ts, false, lines, named, h1, h2⟩
  refine ⟨textsOf, ?_, by decide +kernel⟩
  refine .line (.mk [] [(b!"/set", b1), (b!"type=file", b1), (b!"uid=0", [])] (by decide)) (by decide) ?_
  refine .line (.mk [] [(b!".", b1), (b!"type=dir", [])] (by decide)) (by decide) ?_
  refine .line (.mk b4 [(b!"a", b1), (b!"size=5", .blank :: .cont :: b8), (b!"sha256digest=" ++ dA, [])] (by decide)) (by decide) ?_
  refine .line (.mk b4 [(b!"e", b1), (b!"sha256digest=" ++ emptyDigest, [])] (by decide)) (by decide) ?_
  refine .line (.mk b4 [(b!"l", b1), (b!"type=link", b1), (b!"link=a", [])] (by decide)) (by decide) ?_
  refine .blank (.mk [] [] (by decide)) (by decide) ?_
  refine .line (.mk b4 [(b!"sub", [.tab]), (b!"type=dir", [])] (by decide)) (by decide) ?_
  refine .line (.mk b8 [(b!"b", b1), (b!"sha256digest=" ++ dB, [])] (by decide)) (by decide) ?_
  refine .line (.mk b4 [(b!"..", [])] (by decide)) (by decide) ?_
  refine .line (.mk [] [(b!"..", [])] (by decide)) (by decide) ?_
  exact .nil

/-- C63, what the client finds in the example. -/
example : (full (filesIn b!"." tree)).map itemOf = [⟨true, b!"./a", dA⟩, ⟨true, b!"./sub/b", dB⟩] := by decide

/-- C63, the paths are short enough. -/
example : ∀ e ∈ dirsIn b!"." tree, e.length < 4095 := by decide

set_option maxRecDepth 1000000 in
/-- C63, the example in reads of 100 bytes. -/
example : (reads (List.replicate 6 99) text empty).toOption.map (fun r => (r.1.st.subjs, r.2.1, r.2.2)) =
    some ([⟨b!".", b!"a", dA⟩, ⟨b!"./sub", b!"b", dB⟩], [], true) := by decide +kernel

/-! ### Long paths -/

def longName : Bytes := List.replicate 255 97

/-- Directories in directories. -/
def deep : Nat → Tree
  | 0 => .nil
  | k + 1 => .dir longName (deep k) .nil

def deepLines : Nat → List (List Bytes)
  | 0 => []
  | k + 1 => [longName, b!"type=dir"] :: (deepLines k ++ [[b!".."]])

def deepTexts : Nat → List Bytes
  | 0 => []
  | k + 1 => (longName ++ b!" type=dir\n") :: (deepTexts k ++ [b!"..\n"])

theorem deep_lines : ∀ k, Lines false (deep k) (deepLines k) false
  | 0 => .nil _
  | k + 1 => .dir (l2 := []) [b!"type=dir"] (by decide) (by decide) (deep_lines k) (.nil _)

theorem name_long : Name longName := by unfold Name; decide +kernel

theorem word_long : Word longName := by decide +kernel

theorem deep_named : ∀ k, Named (deep k)
  | 0 => trivial
  | k + 1 => ⟨name_long, deep_named k, trivial⟩

theorem text_append {max : Nat} {l1 l2 : List (List Bytes)} {t1 t2 : List Bytes} (h1 : Text max l1 t1) (h2 : Text max l2 t2) : Text max (l1 ++ l2) (t1 ++ t2) := by
  induction h1 with
  | nil => exact h2
  | blank a b _ ih => exact .blank a b ih
  | line a b _ ih => exact .line a b ih

theorem line_two {n : Bytes} (hn : Word n) (w : Bytes) (hw : Word w) (h : w.getLast? ≠ some 92) : Line [n, w] (n ++ 32 :: (w ++ [10])) := by
  have := Line.mk [] [(n, b1), (w, [])] ⟨hn, by decide, hw, fun _ => h⟩
  simpa [wordsText, gapText, b1, Gap.text] using this

theorem line_up : Line [b!".."] b!"..\n" := .mk [] [(b!"..", [])] (by decide)

theorem deep_text : ∀ k, Text 8191 (deepLines k) (deepTexts k)
  | 0 => .nil
  | k + 1 => by
    have h1 : Line [longName, b!"type=dir"] (longName ++ b!" type=dir\n") := line_two word_long b!"type=dir" (by decide) (by decide)
    exact .line h1 (by decide +kernel) (text_append (deep_text k) (.line line_up (by decide) .nil))

def deepText : Bytes := ((b!". type=dir\n" :: (deepTexts 16 ++ [b!"..\n"])) : List Bytes).flatten

theorem deep_output : Output 8191 (deep 16) deepText := by
  refine ⟨[b!".", b!"type=dir"] :: (deepLines 16 ++ [[b!".."]]), _, false, .dir (l2 := []) [b!"type=dir"] (by decide) (by decide) (deep_lines 16) (.nil _), deep_named 16, ?_, rfl⟩
  exact .line (.mk [] [(b!".", b1), (b!"type=dir", [])] (by decide)) (by decide) (text_append (deep_text 16) (.line line_up (by decide) .nil))

def isUb {α : Type} : Res α → Bool
  | .ub => true
  | _ => false

theorem isUb_eq {α : Type} {r : Res α} (h : isUb r = true) : r = .ub := by
  cases r <;> first | rfl | cases h

set_option maxRecDepth 1000000 in
/-- C63 is false for directories with a path of 4095 bytes and more: `mtree_path` overflows.  (With the names as mtree prints them, where one byte can take four.) -/
theorem C63_counterexample_path : ∃ x text, Output 8191 x text ∧ reads [8190] text empty = .ub :=
  ⟨deep 16, deepText, deep_output, isUb_eq (by decide +kernel)⟩

/-! ### Long lines -/

/-- A long name. -/
def far (n : Nat) : Bytes := List.replicate n 97

def head : Bytes := b!". type=dir\n"
def tail : Bytes := b!" type=link\nb sha256digest=" ++ dB ++ b!"\n..\n"

theorem far_length (n : Nat) : (far n).length = n := List.length_replicate

theorem far_mem {n : Nat} {c : UInt8} (h : c ∈ far n) : c = 97 := (List.mem_replicate.1 h).2

theorem far_ne {n : Nat} (w : Bytes) (h : w.length < n) : far n ≠ w := by
  intro e
  have := congrArg List.length e
  rw [far_length] at this
  omega

theorem far_output (n : Nat) (h1 : 2 < n) (h2 : n < 10000) : Output 20000 (.other (far n) (.file b!"b" dB .nil)) (head ++ far n ++ tail) := by
  have hw : Word (far n) := ⟨far_ne [] (by simp; omega), fun c hc => by rw [far_mem hc]; decide⟩
  refine ⟨[[b!".", b!"type=dir"], [far n, b!"type=link"], [b!"b", b!"sha256digest=" ++ dB], [b!".."]], [head, far n ++ b!" type=link\n", b!"b sha256digest=" ++ dB ++ b!"\n", b!"..\n"], false, ?_, ?_, ?_, ?_⟩
  · refine .dir (l1 := [[far n, b!"type=link"], [b!"b", b!"sha256digest=" ++ dB]]) (l2 := []) [b!"type=dir"] (by decide) (by decide) ?_ (.nil _)
    refine .other [] [] b!"link" (by decide) (by decide) (by decide) ?_
    exact .file [b!"sha256digest=" ++ dB] (by decide) (by decide) (by decide) (.nil _)
  · refine ⟨?_, by unfold Name; decide, trivial⟩
    exact ⟨hw.1, far_ne _ (by simpa using h1), fun c hc => by rw [far_mem hc]; decide⟩
  · refine .line (.mk [] [(b!".", b1), (b!"type=dir", [])] (by decide)) (by decide) ?_
    have h2 : Line [far n, b!"type=link"] (far n ++ b!" type=link\n") := line_two hw b!"type=link" (by decide) (by decide)
    refine .line h2 ?_ ?_
    · rw [List.length_append, far_length]
      have : (b!" type=link\n" : Bytes).length = 11 := rfl
      omega
    refine .line (.mk [] [(b!"b", b1), (b!"sha256digest=" ++ dB, [])] (by decide)) (by decide) ?_
    exact .line line_up (by decide) .nil
  · simp [tail]

theorem piece_far (s : In) (hs : s.buf = []) (n : Nat) : piece s (far n) = .ok ⟨s.st, far n, s.tmp ++ far n⟩ := by
  have h0 : (0 : UInt8) ∉ far n := fun h => absurd (far_mem h) (by decide)
  have h1 : process [] (far n) s.st = .ok (far n, s.st) := by
    have := process_noNl (far n) [] [] s.st (by
      intro c hc
      rw [far_mem hc]; decide)
    rw [List.append_nil, List.nil_append] at this
    rw [this, process]
  unfold piece
  rw [hs, List.nil_append, cstr_of_nul h0, h1]
  rfl

/-- The state after the first line. -/
def first : In := ⟨⟨b!"/.", false, [b!"."], []⟩, [], head⟩

theorem far_reads (n m : Nat) (hm : m = 8191) (hn : m < n) : reads [10, 8190, 0] (head ++ far n ++ tail) empty =
    .ok (⟨first.st, far m, head ++ far m⟩, far (n - m) ++ tail, true) := by
  have e1 : piece empty head = .ok first := by decide +kernel
  have e2 : piece first (far m) = .ok ⟨first.st, far m, head ++ far m⟩ := piece_far first rfl m
  have t1 : (head ++ far n ++ tail).take 11 = head := by rw [List.append_assoc]; exact List.take_left' rfl
  have t2 : (head ++ far n ++ tail).drop 11 = far n ++ tail := by rw [List.append_assoc]; exact List.drop_left' rfl
  have hfar : far n = far m ++ far (n - m) := by
    unfold far
    rw [List.replicate_append_replicate, Nat.add_sub_cancel' (by omega)]
  have t3 : (far n ++ tail).take m = far m := by rw [hfar, List.append_assoc]; exact List.take_left' (far_length m)
  have t4 : (far n ++ tail).drop m = far (n - m) ++ tail := by rw [hfar, List.append_assoc]; exact List.drop_left' (far_length m)
  have m1 : min (10 + 1) (8191 - empty.buf.length) = 11 := rfl
  have m2 : min (8190 + 1) (8191 - first.buf.length) = m := by
    have : first.buf.length = 0 := rfl
    omega
  have m3 : min (0 + 1) (8191 - (far m).length) = 0 := by rw [far_length]; omega
  rw [reads, m1, t1, t2, if_neg (by decide), e1, Res.ok_bind, reads, m2, t3, t4, if_neg (far_ne [] (by simp; omega)), e2, Res.ok_bind, reads]
  simp only [m3, List.take_zero, if_true]

/-- C63 is false for longer lines: the buffer is full, the read of no bytes is taken for the end of the output, and the files behind are left out. -/
theorem C63_counterexample_line : ∃ x text ks s rest, Output 20000 x text ∧ reads ks text empty = .ok (s, rest, true) ∧
    full (filesIn b!"." x) ≠ [] ∧ s.st.subjs = [] ∧ s.tmp ≠ text := by
  refine ⟨_, _, _, _, _, far_output 9000 (by omega) (by omega), far_reads 9000 8191 rfl (by omega), ?_, rfl, ?_⟩
  · simp only [filesIn]
    decide
  · intro h
    have := congrArg List.length h
    simp only [List.length_append, far_length] at this
    omega

end MtreeExample

end Verif.Props
