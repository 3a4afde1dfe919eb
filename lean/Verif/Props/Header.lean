/-
Properties C12 to C15: headers.
-/
import Verif.Proofs.Header
import Verif.Proofs.Dec

namespace Verif.Props
open Verif Header

/-! ### C12, C13: the operations -/

/-- Header operations of the API. -/
inductive HOp where
  | set (name val : Bytes)
  | delete (name : Bytes)
  | clone

/-- Run a sequence of operations. -/
def runH : Hdr → List HOp → Res Hdr
  | h, [] => .ok h
  | h, .set n v :: os => headerSet h n v >>= fun h => runH h os
  | h, .delete n :: os => headerDelete h n >>= fun h => runH h os
  | h, .clone :: os => runH (headerClone h) os

/-- Equal up to letter case. -/
def SameName (a b : Bytes) : Prop := a.map toLower = b.map toLower

instance (a b : Bytes) : Decidable (SameName a b) := by unfold SameName; infer_instance

/-- A name the API permits: no colon, and not WARC-Record-ID. -/
def GoodName (n : Bytes) : Prop := 58 ∉ n ∧ ¬ SameName n b!"WARC-Record-ID"

/-- The map a header stands for: value of the last set not followed by a delete. -/
def specGet (start : Option Bytes) (name : Bytes) : List HOp → Option Bytes
  | [] => start
  | .set n v :: os => specGet (if SameName name n then some v else start) name os
  | .delete n :: os => specGet (if SameName name n then none else start) name os
  | .clone :: os => specGet start name os

def HOp.Good : HOp → Prop
  | .set n _ => GoodName n
  | .delete n => GoodName n
  | .clone => True

theorem nameOk_iff (n : Bytes) : nameOk n = true ↔ GoodName n := by
  simp only [nameOk, Bool.and_eq_true, Bool.not_eq_true', List.contains_eq_mem, decide_eq_false_iff_not, bne_iff_ne,
    ne_eq, GoodName, SameName, strcasecmp_eq, RECORD_ID]

theorem clone_eq (h : Hdr) : headerClone h = h := by
  cases h
  simp [headerClone]

theorem runH_spec (ops : List HOp) (hg : ∀ o ∈ ops, o.Good) (h : Hdr) (hs : SortedF h.fields) :
    ∃ h', runH h ops = .ok h' ∧ h'.id = h.id ∧ SortedF h'.fields ∧
      ∀ name, headerGet h' name = specGet (headerGet h name) name ops := by
  induction ops generalizing h with
  | nil => exact ⟨h, rfl, rfl, hs, fun _ => rfl⟩
  | cons o os ih =>
    have hos := fun x hx => hg x (List.mem_cons_of_mem _ hx)
    cases o with
    | set n v =>
      obtain ⟨h1, e1, e2, e3, e4⟩ := headerSet_spec h n v hs ((nameOk_iff n).2 (hg (.set n v) (by simp)))
      obtain ⟨h', f1, f2, f3, f4⟩ := ih hos h1 e3
      refine ⟨h', by simp [runH, e1, f1], by rw [f2, e2], f3, ?_⟩
      intro name
      rw [f4, e4]
      simp only [specGet, SameName, strcasecmp_eq]
    | delete n =>
      obtain ⟨h1, e1, e2, e3, e4⟩ := headerDelete_spec h n hs ((nameOk_iff n).2 (hg (.delete n) (by simp)))
      obtain ⟨h', f1, f2, f3, f4⟩ := ih hos h1 e3
      refine ⟨h', by simp [runH, e1, f1], by rw [f2, e2], f3, ?_⟩
      intro name
      rw [f4, e4]
      simp only [specGet, SameName, strcasecmp_eq]
    | clone =>
      obtain ⟨h', f1, f2, f3, f4⟩ := ih hos (headerClone h) (by rw [clone_eq]; exact hs)
      rw [clone_eq] at f2
      exact ⟨h', by simp [runH, f1], f2, f3, fun name => by rw [f4, clone_eq]; rfl⟩

/-- C12: any sequence of set, delete and clone operations on a new header succeeds and leaves a
header that behaves as the case-insensitive map `specGet`.  The record ID is not touched. -/
theorem C12_header_map (idSize : Nat) (ops : List HOp) (hg : ∀ o ∈ ops, o.Good) :
    ∃ h, runH (headerNew idSize) ops = .ok h ∧ h.id = (headerNew idSize).id ∧
      ∀ name, headerGet h name = specGet none name ops := by
  obtain ⟨h, h1, h2, -, h4⟩ := runH_spec ops hg (headerNew idSize) (by exact List.Pairwise.nil)
  exact ⟨h, h1, h2, h4⟩

/-- C12 for a header read from an archive: operations update the parsed fields as a map. -/
theorem C12_header_map_parsed (pfx text : Bytes) (h0 : Hdr) (hp : headerParse pfx text = .ok h0)
    (ops : List HOp) (hg : ∀ o ∈ ops, o.Good) :
    ∃ h, runH h0 ops = .ok h ∧ h.id = h0.id ∧
      ∀ name, headerGet h name = specGet (headerGet h0 name) name ops := by
  obtain ⟨h, h1, h2, -, h4⟩ := runH_spec ops hg h0 (headerParse_sorted hp)
  exact ⟨h, h1, h2, h4⟩

example : (∀ o ∈ [HOp.set b!"B" b!"1", .set b!"a" b!"2", .delete b!"b", .set b!"A" b!"3"], o.Good) ∧
    (runH (headerNew 4) [HOp.set b!"B" b!"1", .set b!"a" b!"2", .delete b!"b", .set b!"A" b!"3"]) =
      .ok ⟨b!"____", [(b!"a", b!"3")]⟩ := by
  constructor
  · intro o ho
    simp only [List.mem_cons, List.not_mem_nil, or_false] at ho
    rcases ho with rfl | rfl | rfl | rfl <;> exact ⟨by decide, by decide⟩
  · decide

/-- Strictly ascending names (ignoring case), position by position. -/
def Ascending (h : Hdr) : Prop :=
  ∀ i j (hi : i < h.fields.length) (hj : j < h.fields.length), i < j →
    strcasecmp h.fields[i].1 h.fields[j].1 = .lt

theorem ascending_of {h : Hdr} (hs : SortedF h.fields) : Ascending h := by
  intro i j hi hj hij
  exact List.pairwise_iff_getElem.1 hs i j hi hj hij

/-- Ways to get a header: new, parsed from any text, or by an operation on a header. -/
inductive Reachable (pfx : Bytes) (idSize : Nat) : Hdr → Prop where
  | new : Reachable pfx idSize (headerNew idSize)
  | parse {text h} : headerParse pfx text = .ok h → Reachable pfx idSize h
  | set {h h' n v} : Reachable pfx idSize h → headerSet h n v = .ok h' → Reachable pfx idSize h'
  | delete {h h' n} : Reachable pfx idSize h → headerDelete h n = .ok h' → Reachable pfx idSize h'
  | clone {h} : Reachable pfx idSize h → Reachable pfx idSize (headerClone h)
  | setId {h h' i} : Reachable pfx idSize h → headerSetId idSize h i = .ok h' → Reachable pfx idSize h'
  | setRef {h h' n r} : Reachable pfx idSize h → headerSetRef pfx idSize h n r = .ok h' →
      Reachable pfx idSize h'

theorem reachable_sorted {pfx : Bytes} {idSize : Nat} {h : Hdr} (hr : Reachable pfx idSize h) : SortedF h.fields := by
  induction hr with
  | new => exact List.Pairwise.nil
  | parse hp => exact headerParse_sorted hp
  | set _ he ih => exact headerSet_sorted ih he
  | delete _ he ih =>
    unfold headerDelete at he
    rw [Res.check_bind_eq_ok] at he
    cases he.2
    exact List.Pairwise.sublist List.filter_sublist ih
  | clone _ ih => rw [clone_eq]; exact ih
  | setId _ he ih =>
    unfold headerSetId at he
    rw [Res.check_bind_eq_ok, Res.check_bind_eq_ok] at he
    cases he.2.2
    exact ih
  | setRef _ he ih =>
    unfold headerSetRef at he
    rw [Res.check_bind_eq_ok] at he
    exact headerSet_sorted ih he.2

/-- C13: every header is strictly ascending, and setting any permitted name on it succeeds, so the
check for duplicate names never fires. -/
theorem C13_sorted_unique (pfx : Bytes) (idSize : Nat) (h : Hdr) (hr : Reachable pfx idSize h) :
    Ascending h ∧ ∀ n v, GoodName n → ∃ h', headerSet h n v = .ok h' ∧ Ascending h' := by
  have hs := reachable_sorted hr
  refine ⟨ascending_of hs, ?_⟩
  intro n v hn
  obtain ⟨h', e1, -, e3, -⟩ := headerSet_spec h n v hs ((nameOk_iff n).2 hn)
  exact ⟨h', e1, ascending_of e3⟩

example : Reachable [] 0 ⟨[], [(b!"A", b!"x"), (b!"b", b!"y")]⟩ :=
  .set (.set .new (n := b!"b") (v := b!"y") (h' := ⟨[], [(b!"b", b!"y")]⟩) (by decide))
    (n := b!"A") (v := b!"x") (by decide)

/-! ### C14 -/

/-- The conditions under which the text form is unambiguous.  C strings have no NUL, so NUL needs
no mention. -/
structure Printable (pfx : Bytes) (h : Hdr) : Prop where
  prefixSlash : ∃ p, pfx = p ++ [47]
  prefixChars : 62 ∉ pfx ∧ 13 ∉ pfx
  idChars : 47 ∉ h.id ∧ 62 ∉ h.id ∧ 13 ∉ h.id
  fields : ∀ f ∈ h.fields, GoodName f.1 ∧ 13 ∉ f.1 ∧ 13 ∉ f.2

theorem serialize_parse (pfx : Bytes) (h : Hdr) (hs : SortedF h.fields) (hp : Printable pfx h) :
    headerParse pfx (headerSerialize pfx h) = .ok h := by
  obtain ⟨⟨pp, e1⟩, ⟨e2, e3⟩, ⟨e4, e5, e6⟩, e7⟩ := hp
  have hbody : headerSerialize pfx h = b!"WARC/1.1\r" ++ 10 ::
      ((b!"WARC-Record-ID: <" ++ pfx ++ h.id ++ b!">") ++ 13 :: 10 ::
        ((h.fields.map fun f => f.1 ++ b!": " ++ f.2 ++ b!"\r\n").flatten ++ b!"\r\n")) := by
    simp [headerSerialize]
  unfold headerParse
  have hmagic : ((b!"WARC/1.0\r\nWARC-Record-ID: <").isPrefixOf (headerSerialize pfx h) ||
      (b!"WARC/1.1\r\nWARC-Record-ID: <").isPrefixOf (headerSerialize pfx h)) = true := by
    simp [headerSerialize]
  rw [hmagic, Res.check_true, Res.ok_bind, hbody]
  simp only [cutOrFail]
  rw [cut_append (a := b!"WARC/1.1\r") (by decide)]
  simp only [Res.ok_bind]
  generalize hrest : ((h.fields.map fun f => f.1 ++ b!": " ++ f.2 ++ b!"\r\n").flatten ++ b!"\r\n") = rest
  have hlen : h.fields.length < (b!"WARC-Record-ID: <" ++ pfx ++ h.id ++ b!">" ++ 13 :: 10 :: rest).length := by
    have := fields_len h.fields
    rw [← hrest]
    simp only [List.length_append, List.length_cons]
    omega
  rw [parseLoop, if_neg (by simp)]
  have hcr : (13 : UInt8) ∉ b!"WARC-Record-ID: <" ++ pfx ++ h.id ++ b!">" := by simp [e3, e6]
  simp only [cutOrFail, cut_append hcr, Res.ok_bind, expect, if_true]
  have hline : parseLine pfx { id := [], fields := [] } (b!"WARC-Record-ID: <" ++ pfx ++ h.id ++ b!">") =
      .ok { id := h.id, fields := [] } := by
    have h1 : b!"WARC-Record-ID: <" ++ pfx ++ h.id ++ b!">" =
        b!"WARC-Record-ID" ++ 58 :: 32 :: 60 :: ((pfx ++ h.id) ++ 62 :: []) := by simp
    unfold parseLine
    rw [h1]
    simp only [cutOrFail]
    rw [cut_append (a := b!"WARC-Record-ID") (by decide)]
    simp only [Res.ok_bind, expect, if_true, RECORD_ID, ne_eq, not_true_eq_false, if_false]
    unfold parseId
    simp only [expect, if_true, Res.ok_bind, cutOrFail]
    rw [cut_append (a := pfx ++ h.id) (by simp [e2, e5])]
    simp only [Res.ok_bind, decide_true, Res.check_true]
    have h2 : pfx ++ h.id = pp ++ 47 :: h.id := by rw [e1]; simp
    rw [h2]
    simp only [cutLastOrFail]
    rw [cutLast_append e4, e1]
    simp
  rw [hline]
  have hne : b!"WARC-Record-ID: <" ++ pfx ++ h.id ++ b!">" ≠ [] := by simp
  rw [if_neg hne]
  simp only [Res.ok_bind]
  rw [← hrest]
  rw [← hrest] at hlen
  have := parseLoop_fields pfx h.fields
    (fun f hf => ⟨(nameOk_iff f.1).2 (e7 f hf).1, (e7 f hf).2⟩) { id := h.id, fields := [] } (by simpa using hs) _ hlen
  simpa using this

/-- C14: parsing the text of any header with printable fields gives the header back: same ID, same
fields, same order. -/
theorem C14_serialize_parse (pfx : Bytes) (idSize : Nat) (h : Hdr) (hr : Reachable pfx idSize h)
    (hp : Printable pfx h) : headerParse pfx (headerSerialize pfx h) = .ok h :=
  serialize_parse pfx h (reachable_sorted hr) hp

example : Printable b!"http://x/" ⟨b!"00ff", [(b!"Content-Length", b!"12"), (b!"WARC-Type", b!"a: b")]⟩ ∧
    SortedF [(b!"Content-Length", b!"12"), (b!"WARC-Type", b!"a: b")] := by
  refine ⟨⟨⟨b!"http://x", rfl⟩, by decide, by decide, ?_⟩, ?_⟩
  · intro f hf
    simp only [List.mem_cons, List.not_mem_nil, or_false] at hf
    rcases hf with rfl | rfl <;> exact ⟨⟨by decide, by decide⟩, by decide⟩
  · unfold SortedF
    decide

/-- Without the condition on values the text is ambiguous: a carriage return in a value (possible
for a MIME type if the configuration accepts any) makes the parser abort or, with a newline, adds a
field. -/
theorem C14_counterexample_injection :
    headerParse b!"x/" (headerSerialize b!"x/" ⟨b!"00", [(b!"A", b!"1\rB")]⟩) = .fail ∧
    headerParse b!"x/" (headerSerialize b!"x/" ⟨b!"00", [(b!"A", b!"1\r\nB: 2")]⟩) =
      .ok ⟨b!"00", [(b!"A", b!"1"), (b!"B", b!"2")]⟩ := by
  decide

/-! ### C15 -/

theorem numLoop_digits (l : Bytes) (r : Nat) (hd : ∀ c ∈ l, isDigit c = true)
    (hb : l.foldl (fun n c => n * 10 + (c.toNat - 48)) r < 2 ^ 63) :
    numLoop l r = .ok (l.foldl (fun n c => n * 10 + (c.toNat - 48)) r : Nat) := by
  induction l generalizing r with
  | nil => rfl
  | cons c cs ih =>
    have hc := hd c (by simp)
    simp only [isDigit, Bool.and_eq_true, decide_eq_true_eq] at hc
    have h1 : ¬ (c < 48 ∨ c > 57) := by
      have a1 : (48 : UInt8).toNat ≤ c.toNat := hc.1
      have a2 : c.toNat ≤ (57 : UInt8).toNat := hc.2
      rintro (h | h)
      · have : c.toNat < (48 : UInt8).toNat := h
        omega
      · have : (57 : UInt8).toNat < c.toNat := h
        omega
    have hmono : ∀ (l : Bytes) (a : Nat), a ≤ l.foldl (fun n c => n * 10 + (c.toNat - 48)) a := by
      intro l
      induction l with
      | nil => intro a; exact Nat.le_refl _
      | cons d ds ih =>
        intro a
        rw [List.foldl_cons]
        exact Nat.le_trans (by omega) (ih (a * 10 + (d.toNat - 48)))
    have h2 : r * 10 + (c.toNat - 48) < 2 ^ 63 := Nat.lt_of_le_of_lt (hmono cs _) hb
    rw [numLoop, if_neg h1, if_pos h2, List.foldl_cons]
    exact ih _ (fun x hx => hd x (by simp [hx])) hb

theorem not_digit {c : UInt8} (h : c < 48 ∨ c > 57) : isDigit c = false := by
  cases hd : isDigit c with
  | false => rfl
  | true =>
    simp only [isDigit, Bool.and_eq_true, decide_eq_true_eq] at hd
    have a1 : (48 : UInt8).toNat ≤ c.toNat := hd.1
    have a2 : c.toNat ≤ (57 : UInt8).toNat := hd.2
    rcases h with h | h
    · have : c.toNat < (48 : UInt8).toNat := h
      omega
    · have : (57 : UInt8).toNat < c.toNat := h
      omega

theorem numLoop_sound (l : Bytes) (r : Nat) (v : Int) (h : numLoop l r = .ok v) :
    ((∀ c ∈ l, isDigit c = true) ∧ v = (l.foldl (fun n c => n * 10 + (c.toNat - 48)) r : Nat)) ∨
    ((∃ c ∈ l, isDigit c = false) ∧ v = -1) := by
  induction l generalizing r with
  | nil => simp only [numLoop, Res.ok.injEq] at h; left; simp [h]
  | cons c cs ih =>
    rw [numLoop] at h
    split at h
    · rename_i hc
      cases h
      exact .inr ⟨⟨c, by simp, not_digit hc⟩, rfl⟩
    · rename_i hc
      split at h
      · rcases ih _ h with ⟨a, b⟩ | ⟨⟨d, hd, hd2⟩, b⟩
        · left
          refine ⟨?_, b⟩
          intro x hx
          rcases List.mem_cons.1 hx with rfl | hx
          · cases hd : isDigit x with
            | true => rfl
            | false =>
              exfalso
              apply hc
              simp only [isDigit, Bool.and_eq_false_iff, decide_eq_false_iff_not] at hd
              rcases hd with hd | hd
              · left; exact UInt8.not_le.1 hd
              · right; exact UInt8.not_le.1 hd
          · exact a x hx
        · exact .inr ⟨⟨d, by simp [hd], hd2⟩, b⟩
      · cases h

/-- C15, first part: a number formatted into a header is read back. -/
theorem C15_number_roundtrip (pfx : Bytes) (idSize : Nat) (h : Hdr) (hr : Reachable pfx idSize h)
    (name : Bytes) (hn : GoodName name) (n : Nat) (hb : n < 2 ^ 63) :
    ∃ h', headerSet h name (dec n) = .ok h' ∧ headerGetNumber h' name = .ok n := by
  obtain ⟨h', e1, -, -, e4⟩ := headerSet_spec h name (dec n) (reachable_sorted hr) ((nameOk_iff name).2 hn)
  refine ⟨h', e1, ?_⟩
  have hg : headerGet h' name = some (dec n) := by rw [e4, if_pos (strcasecmp_refl _)]
  rw [headerGetNumber, hg]
  have hv := decVal_dec n
  simp only
  unfold decVal at hv
  rw [numLoop_digits _ _ (fun c hc => decAux_digits _ _ c (by simpa [dec] using hc)) (by rw [hv]; exact hb), hv]

/-- C15, second part: whatever the header text is, a normal return is -1 exactly if the header is
missing or has a non-digit, and otherwise the number written there.

Missing from the full claim: the empty text is not a decimal number but yields 0
(`C15_counterexample_empty`), and a numeral of 2^63 or more overflows `intmax_t`
(`C15_counterexample_overflow`). -/
theorem C15_number_sound_partial (h : Hdr) (name : Bytes) :
    (headerGet h name = none → headerGetNumber h name = .ok (-1)) ∧
    (∀ v, headerGet h name = some v →
      (∀ r, headerGetNumber h name = .ok r →
        ((∀ c ∈ v, isDigit c = true) ∧ r = decVal v) ∨ ((∃ c ∈ v, isDigit c = false) ∧ r = -1)) ∧
      ((∀ c ∈ v, isDigit c = true) → decVal v < 2 ^ 63 → headerGetNumber h name = .ok (decVal v))) := by
  refine ⟨fun hn => by simp [headerGetNumber, hn], ?_⟩
  intro v hv
  simp only [headerGetNumber, hv]
  exact ⟨fun r hr => numLoop_sound v 0 r hr, fun hd hb => numLoop_digits v 0 hd hb⟩

theorem C15_counterexample_empty : headerGetNumber ⟨[], [(b!"A", [])]⟩ b!"a" = .ok 0 := by decide

theorem C15_counterexample_overflow :
    headerGetNumber ⟨[], [(b!"A", b!"9223372036854775808")]⟩ b!"a" = .ub := by decide

example : headerGetNumber ⟨[], [(b!"A", b!"0120")]⟩ b!"a" = .ok 120 ∧
    headerGetNumber ⟨[], [(b!"A", b!"12x")]⟩ b!"a" = .ok (-1) := by decide

/-- The ID of a header always has the configured size: a longer one is cut, a shorter one is refused. -/
theorem setId_exact {n : Nat} {h : Hdr} {i : Bytes} (hg : ∀ c ∈ i, isGraph c = true) :
    (n ≤ i.length → headerSetId n h i = .ok { id := i.take n, fields := h.fields } ∧ (i.take n).length = n) ∧
    (i.length < n → headerSetId n h i = .fail) := by
  constructor
  · intro hn
    refine ⟨?_, by rw [List.length_take]; omega⟩
    simp [headerSetId, List.all_eq_true.2 hg, hn]
  · intro hn
    simp [headerSetId, List.all_eq_true.2 hg, show ¬ n ≤ i.length by omega]

end Verif.Props
