/-
Property C93: the metadata of stow with any server.
-/
import Verif.Props.Json
import Verif.Props.StowAny

namespace Verif.Props
open Verif Stow StowData Spec.Json
open _root_.Verif.Rsilo (cstr)
open AnyServer

namespace JsonAny

/-- The digest of a file and the ID that the server has named, if this is another one. -/
def told (x : Item) (p : Bytes) : Option (Bytes × Bytes) :=
  match StowData.afterSlash (cstr p) with
  | none => none
  | some pp => if pp.isPrefixOf x.digest then none else some (x.digest, pp)

/-- What the server has told about each of the files that were sent. -/
def tolds (xs : List Item) (ps : List Bytes) : List (Bytes × Bytes) := (List.zipWith told xs ps).filterMap id

theorem noted_told (x : Item) (p : Bytes) : noted x p = ((told x p).toList.map fun q => changedEntry q.1 q.2).flatten := by
  unfold noted told
  cases StowData.afterSlash (cstr p) with
  | none => rfl
  | some pp =>
    simp only
    by_cases h : pp.isPrefixOf x.digest
    · rw [if_pos h, if_pos h]
      rfl
    · rw [if_neg h, if_neg h]
      simp

theorem noted_tolds (xs : List Item) : ∀ ps : List Bytes, (List.zipWith noted xs ps).flatten = ((tolds xs ps).map fun q => changedEntry q.1 q.2).flatten := by
  induction xs with
  | nil => exact fun _ => rfl
  | cons x xs ih =>
    intro ps
    cases ps with
    | nil => rfl
    | cons p ps =>
      rw [List.zipWith_cons_cons, List.flatten_cons, ih, noted_told]
      unfold tolds
      rw [List.zipWith_cons_cons]
      cases told x p with
      | none => rfl
      | some q => simp

theorem mem_tolds {q : Bytes × Bytes} (xs : List Item) : ∀ ps : List Bytes, q ∈ tolds xs ps → ∃ x ∈ xs, ∃ p ∈ ps, q.1 = x.digest ∧ StowData.afterSlash (cstr p) = some q.2 := by
  induction xs with
  | nil =>
    intro ps h
    simp [tolds] at h
  | cons x xs ih =>
    intro ps h
    cases ps with
    | nil => simp [tolds] at h
    | cons p ps =>
      rw [tolds, List.zipWith_cons_cons, List.filterMap_cons] at h
      have later : q ∈ tolds xs ps → ∃ y ∈ x :: xs, ∃ p' ∈ p :: ps, q.1 = y.digest ∧ StowData.afterSlash (cstr p') = some q.2 := by
        intro h
        obtain ⟨y, hy, p', hp, e⟩ := ih ps h
        exact ⟨y, by simp [hy], p', by simp [hp], e⟩
      cases ht : told x p with
      | none =>
        rw [ht] at h
        exact later h
      | some r =>
        rw [ht] at h
        rcases List.mem_cons.1 h with rfl | h
        · refine ⟨x, by simp, p, by simp, ?_⟩
          unfold told at ht
          cases hs : StowData.afterSlash (cstr p) with
          | none =>
            rw [hs] at ht
            cases ht
          | some pp =>
            rw [hs] at ht
            simp only at ht
            by_cases hp : pp.isPrefixOf x.digest
            · rw [if_pos hp] at ht
              cases ht
            · rw [if_neg hp] at ht
              cases ht
              exact ⟨rfl, rfl⟩
        · exact later h

/-- What can stand between quotation marks is its own digest, if there is a byte before it. -/
def plainOr (c : Bytes) : Bytes := if (c.drop 1).all (fun c => decide (32 ≤ c ∧ c ≠ 34 ∧ c ≠ 92)) then c.drop 1 else []

theorem plainOr_plain (c : Bytes) : PlainText (plainOr c) := by
  unfold plainOr
  by_cases h : (c.drop 1).all (fun c => decide (32 ≤ c ∧ c ≠ 34 ∧ c ≠ 92))
  · rw [if_pos h]
    exact plain_lit h
  · rw [if_neg h]
    intro d hd
    cases hd

theorem plainOr_cons {b : Bytes} (h : PlainText b) : plainOr (0 :: b) = b := by
  unfold plainOr
  rw [List.drop_succ_cons, List.drop_zero, if_pos]
  exact List.all_eq_true.2 fun c hc => decide_eq_true (h c hc)

/-- The member of "changed" for a file. -/
def member (q : Bytes × Bytes) : Bytes × J := (b!"sha256:" ++ q.1, .str (b!"id:" ++ q.2))

/-- The text of the metadata is JSON, with any digests and IDs that can stand between quotation marks. -/
theorem text_json (g : Cfg) (qs : List (Bytes × Bytes)) {t : Nat} (ht : g.time = dec t) (hs : PlainText (g.sha g.text)) (hj : PlainText g.job)
    (hq : ∀ q ∈ qs, PlainText q.1 ∧ PlainText q.2) :
    parse (metaText g (g.sha g.text) (qs.map fun q => changedEntry q.1 q.2).flatten) =
      some (.arr [.str b!"STOW3.0", .obj ((if qs = [] then [] else [(b!"changed", .obj (qs.map member))]) ++ lastMembers g t)]) := by
  obtain ⟨N, hN⟩ : ∃ N : Nat, ∀ q ∈ qs, q.2.length ≤ N := by
    clear hq
    induction qs with
    | nil => exact ⟨0, fun q h => by cases h⟩
    | cons q qs ih =>
      obtain ⟨N, h⟩ := ih
      refine ⟨max N q.2.length, fun r hr => ?_⟩
      rcases List.mem_cons.1 hr with rfl | hr
      · exact Nat.le_max_right _ _
      · exact Nat.le_trans (h r hr) (Nat.le_max_left _ _)
  let g' : Cfg := { g with
    n := N
    sha := plainOr
    text := 0 :: g.sha g.text }
  have h1 : g'.sha g'.text = g.sha g.text := plainOr_cons hs
  have h2 : ∀ q ∈ qs, g'.ident (0 :: q.2) = q.2 := by
    intro q hq'
    show (plainOr (0 :: q.2)).take N = q.2
    rw [plainOr_cons (hq q hq').2, List.take_of_length_le (hN q hq')]
  let ch : List (Item × Bytes) := qs.map fun q => (⟨true, [], q.1⟩, 0 :: q.2)
  have h3 : (qs.map fun q => changedEntry q.1 q.2).flatten = ch.flatMap (fun p => changedEntry p.1.digest (g'.ident p.2)) := by
    rw [List.flatMap_def, List.map_map]
    congr 1
    refine List.map_congr_left fun q hq' => ?_
    show _ = changedEntry q.1 (g'.ident (0 :: q.2))
    rw [h2 q hq']
  have h4 : metaText g (g.sha g.text) (qs.map fun q => changedEntry q.1 q.2).flatten = record g' ch := by
    unfold metaText record
    rw [h1, h3]
    cases hqs : qs with
    | nil =>
      have e : ch = [] := by
        show qs.map _ = _
        rw [hqs, List.map_nil]
      rw [e]
      rfl
    | cons q l =>
      have e : ch = (⟨true, [], q.1⟩, 0 :: q.2) :: l.map fun q => (⟨true, [], q.1⟩, 0 :: q.2) := by
        show qs.map _ = _
        rw [hqs, List.map_cons]
      rw [e, entries_join, if_neg (by simp [changedEntry]), if_neg (by simp)]
  rw [h4, C93_meta_partial g' ch (t := t) ht plainOr_plain hj (by
    intro p hp
    obtain ⟨q, hq', rfl⟩ := List.mem_map.1 hp
    exact (hq q hq').1)]
  have h5 : ch.map (changedMember g') = qs.map member := by
    show (qs.map _).map _ = _
    rw [List.map_map]
    refine List.map_congr_left fun q hq' => ?_
    show (b!"sha256:" ++ q.1, J.str (b!"id:" ++ g'.ident (0 :: q.2))) = _
    rw [h2 q hq']
    rfl
  have h6 : lastMembers g' t = lastMembers g t := by
    unfold lastMembers
    rw [h1]
  have h7 : (ch = []) = (qs = []) := by
    show (qs.map _ = []) = _
    rw [List.map_eq_nil_iff]
  rw [h5, h6]
  simp only [h7]

theorem afterSlash_plain {p pp : Bytes} (h : StowData.afterSlash (cstr p) = some pp) (hp : PlainText p) : PlainText pp := by
  unfold StowData.afterSlash at h
  split at h
  · cases h
    intro c hc
    have h1 : c ∈ (cstr p) := by
      have := (List.takeWhile_prefix _).subset (List.mem_reverse.1 hc)
      exact List.mem_reverse.1 this
    have h2 : cstr p <+: p := by
      unfold cstr
      exact List.takeWhile_prefix _
    exact hp c (h2.subset h1)
  · cases h

/-- C93: whatever the server is, and whatever it sends, the metadata that stow sends is JSON, if the names in the answers of the server can stand
between quotation marks: it names exactly the files for which the server has told another ID, with this ID. -/
theorem C93_any_server_partial {g : Cfg} {files : List Item} (ok : FilesOk g files) {es : List StowAny.Ev} {o : StowAny.Out} {c : StowAny.Cl}
    (hr : StowAny.run g (StowAny.start g files) es = some o) (ho : lastCl o = some c) {t : Nat} (ht : g.time = dec t) (hs : PlainText (g.sha g.text)) (hj : PlainText g.job)
    (hf : ∀ x ∈ files, PlainText x.digest) (hp : ∀ p ∈ Client.payloads 2 c.got, PlainText p) :
    sends 3 c.sys.up = [] ∨ ∃ Q, sends 3 c.sys.up = g.sha g.text :: Q ++ [[]] ∧ (∀ q ∈ Q, q ≠ []) ∧
      parse Q.flatten = some (.arr [.str b!"STOW3.0", .obj
        ((if tolds ((c.sys.sent.map (·.1)).filter (·.isFile)) (Client.payloads 2 c.got) = [] then [] else
          [(b!"changed", .obj ((tolds ((c.sys.sent.map (·.1)).filter (·.isFile)) (Client.payloads 2 c.got)).map member))]) ++ lastMembers g t)]) := by
  rcases C88_metadata ok hr ho with h | h
  · exact .inl h
  · obtain ⟨Q, e1, e2, e3⟩ := metaMsgs_spec g (g.sha g.text) (List.zipWith noted ((c.sys.sent.map (·.1)).filter (·.isFile)) (Client.payloads 2 c.got)).flatten
    refine .inr ⟨Q, h.trans e1, e2, ?_⟩
    rw [e3, noted_tolds]
    refine text_json g _ ht hs hj fun q hq => ?_
    obtain ⟨x, hx, p, hp', q1, q2⟩ := mem_tolds _ _ hq
    refine ⟨?_, afterSlash_plain q2 (hp p hp')⟩
    rw [q1]
    obtain ⟨hx1, hx2⟩ := List.mem_filter.1 hx
    have := (C88_files ok hr ho).1.subset hx1
    rcases List.mem_append.1 this with h | h
    · exact hf x h
    · simp only [List.mem_cons, List.not_mem_nil, or_false] at h
      rcases h with rfl | rfl <;> cases hx2

/-- The list of files and a file are asked for, and the server tells the ID `id` for the file. -/
def evs (id : Bytes) : List StowAny.Ev :=
  lists ++ [.out 99 none, .inn (.msg 1 (List.replicate 16 99)), .inn (.msg 1 (List.replicate 16 97)), .out 99 (some [7, 8, 9]), .inn (.msg 1 []), .out 99 none, .out 99 none,
    .out 99 none, .out 99 none, .inn (.msg 2 (47 :: id)), .inn (.msg 2 (47 :: List.replicate 16 97)), .out 99 none]

/-- The names of the members of the object in the metadata that was sent. -/
def names (o : Option StowAny.Out) : Option (List Bytes) := do
  let c ← lastCl (← o)
  match parse ((sends 3 c.sys.up).drop 1).flatten with
  | some (.arr [_, .obj ms]) => some (ms.map (·.1))
  | _ => none

set_option maxRecDepth 1000000 in
/-- An ID such as a server makes it. -/
example : names (StowAny.run gx (StowAny.start gx fx) (evs b!"0123456789abcdef")) = some [b!"changed", b!"mtree", b!"target", b!"time"] ∧
    tolds [⟨true, [103], List.replicate 64 99⟩] [b!"/0123456789abcdef"] = [(List.replicate 64 99, b!"0123456789abcdef")] := by decide +kernel

set_option maxRecDepth 1000000 in
/-- C93: the server can make the client send metadata that is no JSON, and put other members into it. -/
theorem C93_counterexample_server : names (StowAny.run gx (StowAny.start gx fx) (evs b!"\"")) = none ∧
    names (StowAny.run gx (StowAny.start gx fx) (evs b!"x\"},\"y\":{\"z\":\"")) = some [b!"changed", b!"y", b!"mtree", b!"target", b!"time"] := by decide +kernel

end JsonAny
end Verif.Props
