/-
Headers made by the store functions can be read back.
-/
import Verif.Spec.Env
import Verif.Props.Header
import Verif.Props.Ident
import Verif.Proofs.SegHdr

namespace Verif.Props
open Verif Header Ident Wsilo Segjob Spec

/-- Sorted and clean: what all headers in the store functions are. -/
def Neat (h : Hdr) : Prop := SortedF h.fields ∧ (∀ f ∈ h.fields, GoodName f.1) ∧ CleanHdr h

theorem neat_set {h h' : Hdr} {n v : Bytes} (hn : Neat h) (he : headerSet h n v = .ok h') (h1 : CleanText n) (h2 : CleanText v) : Neat h' := by
  obtain ⟨hs, hg, hc⟩ := hn
  obtain ⟨k, -, s, -, m, -⟩ := headerSet_inv hs he
  refine ⟨s, ?_, ?_⟩
  · intro f hf
    rcases m f hf with a | ⟨-, a | ⟨g, a, b⟩⟩
    · exact hg f a
    · rw [a]; exact (nameOk_iff n).1 k
    · rw [← b]; exact hg g a
  · intro f hf
    rcases m f hf with a | ⟨a1, a | ⟨g, a, b⟩⟩
    · exact hc f a
    · rw [a, a1]; exact ⟨h1, h2⟩
    · rw [← b, a1]; exact ⟨(hc g a).1, h2⟩

theorem neat_fields {h h' : Hdr} (hn : Neat h) (hf : h'.fields = h.fields) : Neat h' := by
  obtain ⟨hs, hg, hc⟩ := hn
  refine ⟨by rw [hf]; exact hs, by rw [hf]; exact hg, ?_⟩
  unfold CleanHdr
  rw [hf]
  exact hc

theorem clean_append {a b : Bytes} (ha : CleanText a) (hb : CleanText b) : CleanText (a ++ b) := by
  unfold CleanText at *
  simp [ha, hb]

theorem clean_of {t : Bytes} (h : ∀ c ∈ t, c ≠ 13 ∧ c ≠ 0) : CleanText t :=
  ⟨fun hm => (h _ hm).1 rfl, fun hm => (h _ hm).2 rfl⟩

theorem hex_ne {c : UInt8} (h : isHex c = true) : c ≠ 13 ∧ c ≠ 0 ∧ c ≠ 47 ∧ c ≠ 62 := by
  refine ⟨?_, ?_, ?_, ?_⟩ <;> · rintro rfl; revert h; decide

theorem clean_hex {t : Bytes} (h : ∀ c ∈ t, isHex c = true) : CleanText t :=
  clean_of fun c hc => ⟨(hex_ne (h c hc)).1, (hex_ne (h c hc)).2.1⟩

theorem clean_dec (n : Nat) : CleanText (dec n) := by
  refine clean_of fun c hc => ?_
  have := dec_digits n c hc
  constructor <;> · rintro rfl; revert this; decide

theorem clean_take {t : Bytes} (n : Nat) (h : CleanText t) : CleanText (t.take n) :=
  ⟨fun hm => h.1 (List.mem_of_mem_take hm), fun hm => h.2 (List.mem_of_mem_take hm)⟩

theorem clean_replicate (n : Nat) : CleanText (List.replicate n 95) := by
  refine clean_of fun c hc => ?_
  rw [(List.mem_replicate.1 hc).2]
  decide

instance (t : Bytes) : Decidable (CleanText t) := by unfold CleanText; infer_instance

theorem clean_sha {env : Env} (he : EnvOk env) (d : Bytes) : CleanText (b!"sha256:" ++ env.sha d) :=
  clean_append (by decide) (clean_hex (he.sha d).2)

theorem clean_ref {env : Env} (he : EnvOk env) {i : Bytes} (hi : CleanText i) : CleanText (b!"<" ++ env.pfx ++ i ++ b!">") :=
  clean_append (clean_append (clean_append (by decide) he.pfx.2) hi) (by decide)

theorem clean_flatten {l : List Bytes} (h : ∀ t ∈ l, (0 : UInt8) ∉ t) : (0 : UInt8) ∉ l.flatten := by
  intro hm
  obtain ⟨t, ht, hc⟩ := List.mem_flatten.1 hm
  exact h t ht hc

/-- The text of a neat header with a hex ID is read back. -/
theorem neat_parse {env : Env} (he : EnvOk env) {h : Hdr} (hn : Neat h) (hx : ∀ c ∈ h.id, isHex c = true) :
    headerParse env.pfx (headerSerialize env.pfx h) = .ok h ∧ (0 : UInt8) ∉ headerSerialize env.pfx h := by
  obtain ⟨hs, hg, hc⟩ := hn
  constructor
  · apply serialize_parse _ _ hs
    refine ⟨he.slash, ⟨he.pfx.1, he.pfx.2.1⟩, ⟨?_, ?_, ?_⟩, ?_⟩
    · intro hm; exact (hex_ne (hx _ hm)).2.2.1 rfl
    · intro hm; exact (hex_ne (hx _ hm)).2.2.2 rfl
    · intro hm; exact (hex_ne (hx _ hm)).1 rfl
    · intro f hf; exact ⟨hg f hf, (hc f hf).1.1, (hc f hf).2.1⟩
  · unfold headerSerialize
    simp only [List.mem_append, not_or]
    refine ⟨⟨⟨⟨⟨⟨by decide, by decide⟩, he.pfx.2.2⟩, ?_⟩, by decide⟩, ?_⟩, by decide⟩
    · intro hm; exact (hex_ne (hx _ hm)).2.1 rfl
    · apply clean_flatten
      intro t ht
      obtain ⟨f, hf, rfl⟩ := List.mem_map.1 ht
      simp only [List.mem_append, not_or]
      exact ⟨⟨⟨(hc f hf).1.2, by decide⟩, (hc f hf).2.2⟩, by decide⟩

/-! ### The headers of a store job -/

theorem neat_seg0 {env : Env} (he : EnvOk env) {h h0 : Hdr} {n : Nat} (hn : Neat h) (e : seg0Hdr env h n = .ok h0) : Neat h0 := by
  unfold seg0Hdr at e
  rw [clone_eq] at e
  rw [Res.bind_eq_ok] at e
  obtain ⟨h1, e1, e⟩ := e
  rw [Res.bind_eq_ok] at e
  obtain ⟨h2, e2, e⟩ := e
  have n1 := neat_set hn e1 (by decide) (clean_sha he [])
  have n2 := neat_set n1 e2 (by decide) (clean_append (by decide) (clean_dec _))
  by_cases h1 : n = 1
  · rw [if_pos h1] at e
    cases e
    exact n2
  · rw [if_neg h1] at e
    rw [Res.bind_eq_ok] at e
    obtain ⟨h3, e3, e⟩ := e
    rw [Res.bind_eq_ok] at e
    obtain ⟨h4, e4, e5⟩ := e
    have n3 := neat_set n2 e3 (by decide) (clean_dec _)
    have n4 := neat_set n3 e4 (by decide) (by decide)
    exact neat_set n4 (headerSetRef_inv e5).2 (by decide) (clean_ref he (clean_take _ (clean_hex (he.sha []).2)))

theorem neat_finish {env : Env} (he : EnvOk env) {h h' : Hdr} {d : Bytes} {size : Nat} {ident : Option Bytes} (hn : Neat h)
    (e : finishHdr env h (env.sha d) size ident = .ok h') : Neat h' := by
  unfold finishHdr at e
  simp only [Res.bind_eq_ok] at e
  obtain ⟨h1, e1, h2, e2, e3⟩ := e
  have n1 := neat_set hn e1 (by decide) (clean_sha he d)
  have n2 := neat_set n1 e2 (by decide) (clean_dec _)
  exact neat_fields n2 (identSet_inv e3).1

/-- An ID made from a digest is hex. -/
theorem identSet_hex {env : Env} (he : EnvOk env) {h h' : Hdr} {d : Bytes} (e : identSet env.sha env.pfx env.idSize h (env.sha d) none = .ok h') :
    (∀ c ∈ h'.id, isHex c = true) := by
  unfold identSet at e
  simp only [Res.bind_eq_ok] at e
  obtain ⟨i, e1, e2⟩ := e
  have hi : ∀ c ∈ i, isHex c = true := by
    unfold identCreate at e1
    have key : ∀ x y, (.ok ((env.sha x).take y) : Res Bytes) = .ok i → ∀ c ∈ i, isHex c = true := by
      intro x y hx c hc
      cases hx
      exact (he.sha x).2 c (List.mem_of_mem_take hc)
    split at e1
    · cases e1
    · split at e1
      · exact key _ _ e1
      · split at e1
        · exact key _ _ e1
        · split at e1
          · exact key _ _ e1
          · split at e1
            · split at e1
              · cases e1
              · exact key _ _ e1
            · cases e1
  unfold headerSetId at e2
  simp only [Res.bind_eq_ok, Res.check_eq_ok, exists_const, Res.pure_eq, Res.ok.injEq] at e2
  obtain ⟨-, -, rfl⟩ := e2
  intro c hc
  exact hi c (List.mem_of_mem_take hc)

/-! ### The warcinfo record -/

theorem neat_new (n : Nat) : Neat (headerNew n) := ⟨.nil, fun _ h => (by cases h), fun _ h => (by cases h)⟩

theorem infoHdr_ok {env : Env} (he : EnvOk env) {n : Nat} {h : Hdr} (e : infoHdr env n = .ok h) :
    Neat h ∧ (∀ c ∈ h.id, isHex c = true) ∧ h.id.length = env.idSize := by
  unfold infoHdr at e
  simp only [Res.bind_eq_ok] at e
  obtain ⟨h1, e1, h2, e2, h3, e3, h4, e4, h5, e5, h6, e6, e7⟩ := e
  have n1 := neat_set (neat_new _) e1 (by decide) (he.name n)
  have n2 := neat_set n1 e2 (by decide) he.date
  have n3 := neat_set n2 e3 (by decide) (by decide)
  have n4 := neat_set n3 e4 (by decide) (by decide)
  have n5 := neat_set n4 e5 (by decide) (clean_dec _)
  have n6 := neat_set n5 e6 (by decide) (clean_sha he _)
  exact ⟨neat_fields n6 (identSet_inv e7).1, identSet_hex he e7, (identSet_inv e7).2⟩

end Verif.Props
