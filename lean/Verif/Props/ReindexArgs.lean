/-
Property C96: reindexing the silos that are named.
-/
import Verif.Proofs.ReindexSome
import Verif.Props.RecoverExample

namespace Verif.Props
open Verif Header Gzip Ident Index Wsilo Segjob Getjob Spec Inflate
open _root_.Verif.Reindex (reindexMain reindexNames reindexArgs nameNumber strtoul10 reindexSilos reindexSilo leftOver afterSlash)
open _root_.Verif.Silo (Names siloFilename siloDir zpad)

theorem afterSlash_filename (nm : Names) (n : Nat) (hpre : (47 : UInt8) ∉ nm.pre) (hpost : (47 : UInt8) ∉ nm.post) :
    afterSlash (siloFilename nm n false) = some (nm.pre ++ zpad nm.width n ++ nm.post) := by
  obtain ⟨p, hp⟩ := numpart_slash (fuel := n + 1) (lvl := 0) (num := n) (by omega)
  have e : siloFilename nm n false = (nm.dirname ++ p) ++ [47] ++ (nm.pre ++ zpad nm.width n ++ nm.post) := by
    simp only [siloFilename, siloDir, hp, List.append_assoc, Bool.false_eq_true, if_false, List.append_nil]
  rw [e]
  refine afterSlash_last ?_
  intro hm
  rcases List.mem_append.1 hm with hm | hm
  · rcases List.mem_append.1 hm with hm | hm
    · exact hpre hm
    · exact absurd (_root_.Verif.Silo.zpad_digits nm.width n _ hm) (by decide)
  · exact hpost hm

/-- C96: the number that `reindex` takes from the name of a silo is the number of the silo, if the name begins with it. -/
theorem C96_number (nm : Names) {n : Nat} (hn : n < 2 ^ 32) (hpre : nm.pre = []) (hpost : (47 : UInt8) ∉ nm.post)
    (hdig : ∀ c, nm.post.head? = some c → isDigit c = false) : nameNumber (siloFilename nm n false) = .ok n := by
  unfold nameNumber
  rw [afterSlash_filename nm n (by rw [hpre]; simp) hpost, hpre, List.nil_append]
  simp only
  have h32 : (2 : Nat) ^ 32 ≤ 2 ^ 64 := Nat.pow_le_pow_right (by decide) (by decide)
  rw [strtoul10_zpad hdig (Nat.lt_of_lt_of_le hn h32), Nat.mod_eq_of_lt hn]

example : siloFilename ⟨b!"/warc/", [], 8, b!".warc.gz"⟩ 31415 false = b!"/warc/2/03/14/00031415.warc.gz" ∧
    nameNumber b!"/warc/2/03/14/00031415.warc.gz" = .ok 31415 := by decide +kernel

/-- C96: if the name begins with another text, as `silo.basename` may say, the number is 0 for every silo: unless the text begins with what
`strtoul(3)` takes as the beginning of a number. -/
theorem C96_name_zero (nm : Names) (n : Nat) (c : UInt8) (cs : Bytes) (hpre : nm.pre = c :: cs) (hs : (47 : UInt8) ∉ nm.pre) (hpost : (47 : UInt8) ∉ nm.post)
    (hc : isDigit c = false ∧ isSpace c = false ∧ c ≠ 43 ∧ c ≠ 45) : nameNumber (siloFilename nm n false) = .ok 0 := by
  unfold nameNumber
  rw [afterSlash_filename nm n hs hpost, hpre]
  simp only
  have h1 : Audit.skipWs (c :: cs ++ zpad nm.width n ++ nm.post) = c :: (cs ++ zpad nm.width n ++ nm.post) := by
    rw [List.cons_append, List.cons_append, Audit.skipWs, if_neg (by rw [hc.2.1]; simp)]
  have h2 : Audit.sign (c :: (cs ++ zpad nm.width n ++ nm.post)) = (false, c :: (cs ++ zpad nm.width n ++ nm.post)) := by
    unfold Audit.sign
    split
    · rename_i h
      cases h
      simp at hc
    · rename_i h
      cases h
      simp at hc
    · rfl
  have h3 := ulDigits_stop [] (c :: (cs ++ zpad nm.width n ++ nm.post)) (fun d hd => by cases hd; exact hc.1) 0 (fun d hd => by cases hd)
  rw [List.nil_append] at h3
  unfold strtoul10
  rw [h1, h2]
  simp only [h3, List.foldl_nil]
  rfl

example : siloFilename ⟨b!"/warc/", b!"silo-", 8, b!".warc.gz"⟩ 31415 false = b!"/warc/2/03/14/silo-00031415.warc.gz" ∧
    nameNumber b!"/warc/2/03/14/silo-00031415.warc.gz" = .ok 0 := by decide +kernel

/-- C96: so the number is not always that of the silo: the names are those of `Silo_Filename`, and the entries have 0 as silo. -/
theorem C96_counterexample_name : ∃ (nm : Names) (n : Nat), n < 2 ^ 32 ∧ nameNumber (siloFilename nm n false) ≠ .ok n :=
  ⟨⟨b!"/warc/", b!"silo-", 8, b!".warc.gz"⟩, 7, by decide, by decide +kernel⟩

/-- C96: a name without a slash is an assertion failure, if the file can be opened. -/
theorem C96_no_slash {ps : Nat} {pfx : Bytes} {idSize sort fuel : Nat} {files : Bytes → Option Bytes} {fn f : Bytes} (fns : List Bytes) (d : Dir)
    (hs : (47 : UInt8) ∉ fn) (hf : files fn = some f) : reindexArgs ps pfx idSize sort fuel files (fn :: fns) d = .fail := by
  unfold reindexArgs
  rw [reindexNames, hf]
  simp only [nameNumber, afterSlash_none hs, Res.fail_bind]

/-- C96: a file that cannot be opened is passed over, and that is reported. -/
theorem C96_no_file {ps : Nat} {pfx : Bytes} {idSize sort fuel : Nat} {files : Bytes → Option Bytes} {fn : Bytes} (fns : List Bytes) (d : Dir) (hf : files fn = none)
    {r : (Dir × List _root_.Verif.Reindex.Seg) × Bool} (h : reindexArgs ps pfx idSize sort fuel files fns d = .ok r) :
    reindexArgs ps pfx idSize sort fuel files (fn :: fns) d = .ok (r.1, false) := by
  unfold reindexArgs at h ⊢
  rw [reindexNames, hf]
  simp only [Res.bind_eq_ok, Res.pure_eq, Res.ok.injEq] at h
  obtain ⟨a, h1, b, h2, rfl⟩ := h
  simp only [h1, Res.ok_bind, Res.pure_eq, h2]

theorem reindexNames_numbers {ps : Nat} {pfx : Bytes} {idSize sort fuel : Nat} {files : Bytes → Option Bytes} {silos : Nat → Option _root_.Verif.Commit.Silo} {name : Nat → Bytes}
    (ns : List Nat) (hname : ∀ n ∈ ns, nameNumber (name n) = .ok n) (hfiles : ∀ n ∈ ns, ∃ f, silos n = some f ∧ files (name n) = some f.data) : ∀ d segs,
    reindexNames ps pfx idSize sort fuel files (ns.map name) d segs = (reindexSilos ps pfx idSize sort fuel silos ns d segs >>= fun r => .ok (r, true)) := by
  induction ns with
  | nil => intro d segs; rfl
  | cons n ns ih =>
    intro d segs
    obtain ⟨f, h1, h2⟩ := hfiles n (by simp)
    rw [List.map_cons, reindexNames, h2, reindexSilos, h1]
    simp only [hname n (by simp), Res.ok_bind]
    cases reindexSilo ps pfx idSize sort n fuel f.data d segs with
    | fail => rfl
    | ub => rfl
    | ok r => exact ih (fun k hk => hname k (by simp [hk])) (fun k hk => hfiles k (by simp [hk])) _ _

/-- C96: naming silos by the names that they have is reindexing those silos. -/
theorem C96_args {ps : Nat} {pfx : Bytes} {idSize sort fuel : Nat} {files : Bytes → Option Bytes} {silos : Nat → Option _root_.Verif.Commit.Silo} {nm : Names}
    (hpre : nm.pre = []) (hpost : (47 : UInt8) ∉ nm.post) (hdig : ∀ c, nm.post.head? = some c → isDigit c = false) {ns : List Nat}
    (hns : ∀ n ∈ ns, n < 2 ^ 32 ∧ ∃ f, silos n = some f ∧ files (siloFilename nm n false) = some f.data) {d d' : Dir} {left : List _root_.Verif.Reindex.Seg} :
    reindexArgs ps pfx idSize sort fuel files (ns.map fun n => siloFilename nm n false) d = .ok ((d', left), true) ↔
      reindexMain ps pfx idSize sort fuel silos ns d = .ok (d', left) := by
  unfold reindexArgs
  rw [reindexNames_numbers (silos := silos) (name := fun n => siloFilename nm n false) ns (fun n hn => C96_number nm (hns n hn).1 hpre hpost hdig)
    (fun n hn => (hns n hn).2), reindexMain_eq]
  simp only [Res.bind_eq_ok, Res.pure_eq, Res.ok.injEq, Prod.mk.injEq]
  constructor
  · rintro ⟨a, ⟨b, h1, rfl⟩, q, h2, h3, -⟩
    exact ⟨b, h1, by rw [h2, h3]⟩
  · rintro ⟨b, h1, h2⟩
    exact ⟨(b, true), ⟨b, h1, rfl⟩, (d', left), h2, rfl, rfl⟩

/-- C96: after any history of stores and housekeeping runs that started with an empty archive, reindexing any of its silos into the
index that is there succeeds and leaves no segment over; the index has the same entries as before, and every object is got as before
(if no record clashes with it, and the index search is safe in the new file).  The conditions are that the IDs of segments differ in
their first 16 digits, and have them in small letters. -/
theorem C96_some_partial {σ : Type} {env : Env} {D : Deflater σ} (hz : Zlib D) (he : EnvOk env) {g : Bool} {w0 w : World} (hw0 : w0.dir = {}) (hs0 : ∀ n, w0.silos n = none)
    (hl : Stores env D g w0 w) {ns : List Nat} (hnd : ns.Nodup) (hns : ∀ n ∈ ns, w.silos n ≠ none) {sort fuel : Nat} (hsort : sort % 32 = 0 ∧ 0 < sort)
    (hfuel : ∀ n f, w.silos n = some f → f.data.length < fuel) :
    ∃ ops A, ArchInv env w ops A ∧ (SegmentsDiffer A → SegmentsLower A → A.length < 2 ^ 29 →
      ∃ d es r es' r' ops' A', reindexMain env.ps env.pfx env.idSize sort fuel w.silos ns w.dir = .ok (d, []) ∧
        listing w.dir = .ok (es, r) ∧ listing d = .ok (es', r') ∧ (∀ e, e ∈ es' ↔ e ∈ es) ∧ ArchInv env { w with dir := d } ops' A' ∧ (∀ x, x ∈ A' ↔ x ∈ A) ∧
        ∀ id payload x ys, Holds env A id payload x ys → Clear env { w with dir := d } A id x ys → ∀ q, idxValidId env.pfx env.idSize q = .ok id →
          ∀ fuel2, ys.length < fuel2 → ∃ gj, getjobNew env.ps env.pfx env.idSize fuel2 { w with dir := d } q = .ok (.job gj) ∧
            ∀ cut : Bytes → List Bytes, (∀ b, (cut b).flatten = b) → getjobIterate env.ps cut gj collect [] false = .ok payload) := by
  obtain ⟨ops, A, P, objs, I, h1, h2, h3⟩ := stores_inv hz he hl hw0 hs0
  refine ⟨ops, A, h1, fun hf hlow hfew => ?_⟩
  have n1 := congrArg List.length h1.entries
  simp only [List.length_map] at n1
  obtain ⟨d, ops', A', r1, r2, r3, r4, r5, r6⟩ := reindex_some he h1 h2 h3 hf hlow hfew hnd hns hsort hfuel
  have n2 := congrArg List.length r5
  simp only [List.length_map] at n2
  have hmem : ∀ x, x ∈ A ++ A' ↔ x ∈ A := by
    intro x
    rw [List.mem_append]
    exact ⟨fun h => h.elim id (r2 x), Or.inl⟩
  have hv : ∀ o ∈ ops ++ ops', o.Valid := fun o ho => (List.mem_append.1 ho).elim (h1.valid o) (r4 o)
  have hinv : ArchInv env { w with dir := d } (ops ++ ops') (A ++ A') := by
    refine ⟨r3, hv, ?_, fun x hx => h1.there x ((hmem x).1 hx), fun x hx => h1.text x ((hmem x).1 hx)⟩
    rw [inserts_append, List.map_append, List.map_append, h1.entries, r5]
  obtain ⟨d1, es, r, a1, a2, a3, -⟩ := C04_listing_complete ops h1.valid (by omega)
  obtain ⟨d2, es', r', b1, b2, b3, -⟩ := C04_listing_complete (ops ++ ops') hv (by rw [inserts_append, List.length_append]; omega)
  have := h1.dir
  rw [a1] at this
  cases this
  have := r3
  rw [b1] at this
  cases this
  refine ⟨d, es, r, es', r', ops ++ ops', A ++ A', r1, a2, b2, ?_, hinv, hmem, ?_⟩
  · intro e
    rw [a3, b3]
    have k1 : (∃ i ∈ inserts ops, i.entry = e) ↔ e ∈ A.map (·.entry) := by rw [← h1.entries, List.mem_map]
    have k2 : (∃ i ∈ inserts (ops ++ ops'), i.entry = e) ↔ e ∈ (A ++ A').map (·.entry) := by rw [← hinv.entries, List.mem_map]
    rw [k1, k2]
    simp only [List.mem_map, hmem]
  · intro id payload x ys hho hcl q hq fuel2 hf2
    have hcl' : Clear env { w with dir := d } (A ++ A') id x ys :=
      ⟨fun y hy => hcl.first y ((hmem y).1 hy), onlyChain_less (fun y hy => (hmem y).1 hy) _ _ hcl.chain, by rw [List.length_append]; omega, hcl.seek⟩
    obtain ⟨-, u6, u7⟩ := (C11_valid_id _ _ _ _).1 hq
    obtain ⟨gj, g1, -, g2, -⟩ := C33_get_partial (gettable_of he hinv u6 u7 (holds_mono (fun y hy => (hmem y).2 hy) hho).1 hcl') hq hf2
    refine ⟨gj, g1, fun cut hc => ?_⟩
    rw [g2 cut hc, hho.2.1]

/-- Store an object of three segments, reindex the silos of each of `runs` in a run, into an index that is empty or the one that is there: the
number of entries before and after, the segments left over in each run, and what is got then. -/
def runsGet (lost : Bool) (runs : List (List Nat)) : Res (Nat × Nat × List Nat × Bytes) := do
  let env := Example.env 1120
  let r ← storeObj env Example.stored 10 emptyWorld Example.hdr none longObject
  let d ← runs.foldlM (fun (d : Dir × List Nat) ns => do
    let x ← reindexMain env.ps env.pfx env.idSize 320 2000 r.1.silos ns d.1
    return (x.1, d.2 ++ [x.2.length])) (if lost then {} else r.1.dir, [])
  let a ← listing r.1.dir
  let b ← listing d.1
  let g ← getjobNew env.ps env.pfx env.idSize 10 { r.1 with dir := d.1 } r.2
  let y ← (match g with
    | .job j => getjobIterate env.ps (fun b => [b]) j collect [] false
    | .error _ => .ok b!"not found")
  return (a.1.length, b.1.length, d.2, y)

set_option maxRecDepth 1000000 in
/-- One silo of the three, into the index that is there. -/
example : runsGet false [[1]] = .ok (6, 8, [0], longObject.flatten) := by decide +kernel

/-- The same, in the two runs [0, 1] and [2], into an empty index. -/
def runsLost : Res (Nat × Nat × Bool) := do
  let env := Example.env 1120
  let r ← storeObj env Example.stored 10 emptyWorld Example.hdr none longObject
  let x ← reindexMain env.ps env.pfx env.idSize 320 2000 r.1.silos [0, 1] {}
  let y ← reindexMain env.ps env.pfx env.idSize 320 2000 r.1.silos [2] x.1
  let g ← getjobNew env.ps env.pfx env.idSize 10 { r.1 with dir := y.1 } r.2
  return (x.2.length, y.2.length, match g with
    | .job _ => false
    | .error _ => true)

set_option maxRecDepth 1000000 in
theorem runsLost_eq : runsLost = .ok (1, 0, true) := by decide +kernel

set_option maxRecDepth 1000000 in
/-- In one run it is got, in whatever order. -/
example : runsGet true [[2, 0, 1]] = .ok (6, 6, [0], longObject.flatten) := by decide +kernel

/-- C96: an index that is lost cannot be made again by reindexing the silos one after the other: an object with segments in silos of
two runs is not found then, and the last run reports nothing. -/
theorem C96_counterexample_runs : ∃ w0 w uri d1 l1 d2 e, w0.dir = {} ∧ (∀ n, w0.silos n = none) ∧ Stores (Example.env 1120) Example.stored false w0 w ∧
    storeObj (Example.env 1120) Example.stored 10 w0 Example.hdr none longObject = .ok (w, uri) ∧
    reindexMain (Example.env 1120).ps (Example.env 1120).pfx (Example.env 1120).idSize 320 2000 w.silos [0, 1] {} = .ok (d1, l1) ∧
    reindexMain (Example.env 1120).ps (Example.env 1120).pfx (Example.env 1120).idSize 320 2000 w.silos [2] d1 = .ok (d2, []) ∧
    getjobNew (Example.env 1120).ps (Example.env 1120).pfx (Example.env 1120).idSize 10 { w with dir := d2 } uri = .ok (.error e) := by
  have h := runsLost_eq
  unfold runsLost at h
  simp only [Res.bind_eq_ok, Res.pure_eq, Res.ok.injEq, Prod.mk.injEq] at h
  obtain ⟨⟨w, uri⟩, e1, ⟨d1, l1⟩, e2, ⟨d2, l2⟩, e3, g, e4, -, e5, e6⟩ := h
  have hin : GoodInput (Example.env 1120) longObject := ⟨by decide, by simp [longObject], by simp [longObject, Example.env]⟩
  have hty : headerGet Example.hdr b!"WARC-Type" = some b!"resource" := by decide
  have hl : l2 = [] := List.eq_nil_of_length_eq_zero e5
  subst hl
  cases g with
  | job j => cases e6
  | error e =>
    exact ⟨emptyWorld, w, uri, d1, l1, d2, e, rfl, fun _ => rfl, .store (.refl _) (example_goodJob 1120) (Or.inl hty) hin (fun h => absurd rfl h) e1, e1, e2, e3, e4⟩

end Verif.Props
