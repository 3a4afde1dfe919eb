/-
Properties C49 and C50: record identities.
-/
import Verif.Proofs.Header
import Verif.Props.Header
import Verif.Props.ValidId
import Verif.Model.Ident

namespace Verif.Props
open Verif Header Index Ident

/-! ### C49 -/

/-- C49, first part: a resource, a continuation segment and a warcinfo record are identified by the digest
alone, cut to the configured length. -/
theorem C49_by_digest (sha : Bytes → Bytes) (idSize : Nat) (h : Hdr) (d t : Bytes)
    (ht : headerGet h b!"WARC-Type" = some t)
    (hc : t = b!"resource" ∨ t = b!"continuation" ∨ t = b!"warcinfo") :
    identCreate sha idSize h d = .ok (d.take idSize) := by
  unfold identCreate
  rw [ht]
  rcases hc with rfl | rfl | rfl
  · rfl
  · simp only; rw [if_neg (by decide), if_pos True.intro]
  · simp only; rw [if_neg (by decide), if_neg (by decide), if_pos True.intro]

/-- C49, second part: a metadata record is identified by the hash of reference and digest. -/
theorem C49_metadata (sha : Bytes → Bytes) (idSize : Nat) (h : Hdr) (d ref : Bytes)
    (ht : headerGet h b!"WARC-Type" = some b!"metadata") (hr : headerGet h b!"WARC-Refers-To" = some ref) :
    identCreate sha idSize h d = .ok ((sha (ref ++ [10] ++ d ++ [10])).take idSize) := by
  unfold identCreate
  rw [ht, hr]
  simp only
  rw [if_neg (by decide), if_neg (by decide), if_neg (by decide), if_pos True.intro]
  rfl

/-- C49: nothing else in the header has an influence on the ID. -/
theorem C49_nothing_else (sha : Bytes → Bytes) (idSize : Nat) (h h' : Hdr) (d : Bytes)
    (ht : headerGet h b!"WARC-Type" = headerGet h' b!"WARC-Type")
    (hr : headerGet h b!"WARC-Refers-To" = headerGet h' b!"WARC-Refers-To") :
    identCreate sha idSize h d = identCreate sha idSize h' d := by
  unfold identCreate
  rw [ht, hr]

/-- C49: no ID without a known type, and none for metadata without a reference. -/
theorem C49_no_other (sha : Bytes → Bytes) (idSize : Nat) (h : Hdr) (d i : Bytes)
    (hi : identCreate sha idSize h d = .ok i) :
    ∃ t, headerGet h b!"WARC-Type" = some t ∧
      (t = b!"resource" ∨ t = b!"continuation" ∨ t = b!"warcinfo" ∨
        t = b!"metadata" ∧ (headerGet h b!"WARC-Refers-To").isSome) := by
  unfold identCreate at hi
  cases ht : headerGet h b!"WARC-Type" with
  | none => rw [ht] at hi; exact absurd hi (by simp)
  | some t =>
    rw [ht] at hi
    refine ⟨t, rfl, ?_⟩
    simp only at hi
    by_cases h1 : t = b!"resource"
    · exact .inl h1
    · by_cases h2 : t = b!"continuation"
      · exact .inr (.inl h2)
      · by_cases h3 : t = b!"warcinfo"
        · exact .inr (.inr (.inl h3))
        · rw [if_neg h1, if_neg h2, if_neg h3] at hi
          by_cases h4 : t = b!"metadata"
          · rw [if_pos h4] at hi
            refine .inr (.inr (.inr ⟨h4, ?_⟩))
            cases hr : headerGet h b!"WARC-Refers-To" with
            | none => rw [hr] at hi; exact absurd hi (by simp)
            | some r => rfl
          · rw [if_neg h4] at hi; exact absurd hi (by simp)

/-- C49: different references, or different payload digests, are hashed from different texts.  All digests
have the same length. -/
theorem C49_different_reference (r r' d d' : Bytes) (hl : d.length = d'.length)
    (he : metaInput r d = metaInput r' d') : r = r' ∧ d = d' := by
  unfold metaInput at he
  have h1 := List.append_inj_left' he rfl
  have h2 := List.append_inj' h1 hl
  have h3 := List.append_inj_left' h2.1 rfl
  exact ⟨h3, h2.2⟩

example : (metaInput b!"<http://x/ab>" b!"cd") = b!"<http://x/ab>\ncd\n" := by decide

/-- C49, "different types give different hash inputs" is false: for every metadata record there is a resource
(with the text that is hashed for the record as its content) that has the same ID. -/
theorem C49_counterexample_type (sha : Bytes → Bytes) (idSize : Nat) (hm hr : Hdr) (ref content : Bytes)
    (h1 : headerGet hm b!"WARC-Type" = some b!"metadata") (h2 : headerGet hm b!"WARC-Refers-To" = some ref)
    (h3 : headerGet hr b!"WARC-Type" = some b!"resource") :
    ∃ content' : Bytes, content' ≠ [] ∧
      identCreate sha idSize hr (sha content') = identCreate sha idSize hm (sha content) := by
  refine ⟨metaInput ref (sha content), by simp [metaInput], ?_⟩
  rw [C49_by_digest sha idSize hr _ _ h3 (.inl rfl), C49_metadata sha idSize hm _ ref h1 h2]
  simp [metaInput]

example : identCreate (fun x => b!"5a" ++ x) 6
    ⟨[], [(b!"WARC-Refers-To", b!"<p/ab>"), (b!"WARC-Type", b!"metadata")]⟩ b!"cd" = .ok b!"5a<p/a" := by decide

/-! ### C50 -/

theorem hex_graph {c : UInt8} (h : isHex c = true) : isGraph c = true := by
  have tbl : ∀ n : Fin 256, isHex (UInt8.ofNat n) = true → isGraph (UInt8.ofNat n) = true := by
    set_option maxRecDepth 20000 in decide
  have := tbl ⟨c.toNat, c.toNat_lt⟩
  simp only [UInt8.ofNat_toNat] at this
  exact this h

theorem not_hex_lower {c : UInt8} (h : toLower c = 47) : isHex c = false := by
  have tbl : ∀ n : Fin 256, toLower (UInt8.ofNat n) = 47 → isHex (UInt8.ofNat n) = false := by
    set_option maxRecDepth 20000 in decide
  have := tbl ⟨c.toNat, c.toNat_lt⟩
  simp only [UInt8.ofNat_toNat] at this
  exact this h

/-- A bare ID is accepted if the prefix has a slash. -/
theorem valid_bare (pfx : Bytes) (idSize : Nat) (i : Bytes) (hp : 47 ∈ pfx) (hx : ∀ c ∈ i, isHex c = true)
    (hl : i.length = idSize) : idxValidId pfx idSize i = .ok i := by
  rw [C11_valid_id]
  refine ⟨.inr ⟨?_, rfl⟩, hx, hl⟩
  rintro ⟨pre, rest, rfl, hm⟩
  have : (47 : UInt8) ∈ pre.map toLower := by rw [hm]; exact List.mem_map.2 ⟨47, hp, by decide⟩
  obtain ⟨c, hc, hcc⟩ := List.mem_map.1 this
  have := hx c (List.mem_append_left _ hc)
  rw [not_hex_lower hcc] at this
  cases this

/-- The full form of an ID is accepted. -/
theorem valid_uri (pfx : Bytes) (idSize : Nat) (i : Bytes) (hx : ∀ c ∈ i, isHex c = true)
    (hl : i.length = idSize) : idxValidId pfx idSize (pfx ++ i) = .ok i := by
  rw [C11_valid_id]
  exact ⟨.inl ⟨pfx, rfl, rfl⟩, hx, hl⟩

/-- C50, the ID is given bare: it becomes the record's ID. -/
theorem C50_bare (sha : Bytes → Bytes) (pfx : Bytes) (idSize : Nat) (h : Hdr) (d i : Bytes) (hp : 47 ∈ pfx)
    (hx : ∀ c ∈ i, isHex c = true) (hl : i.length = idSize) :
    identSet sha pfx idSize h d (some i) = .ok { h with id := i } := by
  have hv : validId pfx idSize i = true := by rw [validId, valid_bare pfx idSize i hp hx hl]
  unfold identSet
  simp only
  rw [hv, Res.check_true, Res.ok_bind]
  unfold headerSetId
  rw [show i.all isGraph = true from List.all_eq_true.2 fun c hc => hex_graph (hx c hc)]
  rw [Res.check_true, Res.ok_bind, decide_eq_true (by omega), Res.check_true, Res.ok_bind]
  simp [← hl]

/-- C50 is false for an ID given as a full URI: the record gets the first characters of the URI as its ID. -/
theorem C50_uri (sha : Bytes → Bytes) (pfx : Bytes) (idSize : Nat) (h : Hdr) (d i : Bytes)
    (hx : ∀ c ∈ i, isHex c = true) (hl : i.length = idSize) (hg : ∀ c ∈ pfx, isGraph c = true) :
    identSet sha pfx idSize h d (some (pfx ++ i)) = .ok { h with id := (pfx ++ i).take idSize } := by
  have hv : validId pfx idSize (pfx ++ i) = true := by rw [validId, valid_uri pfx idSize i hx hl]
  unfold identSet
  simp only
  rw [hv, Res.check_true, Res.ok_bind]
  unfold headerSetId
  rw [show (pfx ++ i).all isGraph = true from List.all_eq_true.2 fun c hc => by
    rcases List.mem_append.1 hc with hc | hc
    · exact hg c hc
    · exact hex_graph (hx c hc)]
  rw [Res.check_true, Res.ok_bind, decide_eq_true (by simp; omega), Res.check_true, Res.ok_bind]
  rfl

/-- C50: with a prefix that has a colon or a slash among its first characters (such as "http://") the store
then aborts when it makes the full form of that ID. -/
theorem C50_counterexample_uri (pfx : Bytes) (idSize : Nat) (i : Bytes)
    (hc : ∃ c ∈ pfx.take idSize, c = 58 ∨ c = 47) :
    digest2Ident pfx idSize ((pfx ++ i).take idSize) = .fail := by
  unfold digest2Ident
  have hv : validId pfx idSize (pfx ++ (pfx ++ i).take idSize) = false := by
    unfold validId
    rw [show idxValidId pfx idSize (pfx ++ (pfx ++ i).take idSize) = .error .wrongPrefix from ?_]
    unfold idxValidId skipPrefix
    rw [show strncasecmpEq (pfx ++ (pfx ++ i).take idSize) pfx pfx.length = true from ?_]
    · simp only [if_true, List.drop_left]
      rw [if_pos]
      rw [List.any_eq_true]
      obtain ⟨c, hc, hcc⟩ := hc
      refine ⟨c, ?_, by simpa using hcc⟩
      rw [List.take_append]
      exact List.mem_append_left _ hc
    · simp [strncasecmpEq]
  rw [hv]
  rfl

/-- C50: with a bare ID the full form printed at the end is the prefix and that ID. -/
theorem C50_printed (pfx : Bytes) (idSize : Nat) (i : Bytes) (hx : ∀ c ∈ i, isHex c = true) (hl : i.length = idSize) :
    digest2Ident pfx idSize i = .ok (pfx ++ i) := by
  unfold digest2Ident
  have hv : validId pfx idSize (pfx ++ i) = true := by rw [validId, valid_uri pfx idSize i hx hl]
  rw [hv]
  rfl

example : identSet (fun x => x) b!"http://x/" 4 ⟨[], []⟩ [] (some b!"12aF") = .ok ⟨b!"12aF", []⟩ ∧
    identSet (fun x => x) b!"http://x/" 4 ⟨[], []⟩ [] (some b!"http://x/12aF") = .ok ⟨b!"http", []⟩ ∧
    identSet (fun x => x) b!"http://x/" 8 ⟨[], []⟩ [] (some b!"http://x/12aF12aF") = .ok ⟨b!"http://x", []⟩ := by decide

end Verif.Props
