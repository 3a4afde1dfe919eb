/-
Lemmas about building silos.
-/
import Verif.Model.Segjob
import Verif.Proofs.HeaderLen
import Verif.Proofs.Dec

namespace Verif.Wsilo
open Verif Header Gzip Ident Index Segjob

theorem identSet_inv {sha : Bytes → Bytes} {pfx : Bytes} {idSize : Nat} {h h' : Hdr} {d : Bytes} {i : Option Bytes}
    (he : identSet sha pfx idSize h d i = .ok h') : h'.fields = h.fields ∧ h'.id.length = idSize := by
  have key : ∀ x, headerSetId idSize h x = .ok h' → h'.fields = h.fields ∧ h'.id.length = idSize := by
    intro x hx
    unfold headerSetId at hx
    rw [Res.check_bind_eq_ok, Res.check_bind_eq_ok] at hx
    obtain ⟨-, h2, h3⟩ := hx
    simp only [Res.pure_eq, Res.ok.injEq] at h3
    rw [← h3]
    have := of_decide_eq_true h2
    exact ⟨rfl, by simp only [List.length_take]; omega⟩
  unfold identSet at he
  cases i with
  | none =>
    simp only [Res.bind_eq_ok] at he
    obtain ⟨x, -, hx⟩ := he
    exact key x hx
  | some i =>
    simp only [Res.check_bind_eq_ok] at he
    exact key i he.2

theorem headerSetRef_inv {pfx : Bytes} {idSize : Nat} {h h' : Hdr} {n r : Bytes} (he : headerSetRef pfx idSize h n r = .ok h') :
    idSize ≤ r.length ∧ headerSet h n (b!"<" ++ pfx ++ r.take idSize ++ b!">") = .ok h' := by
  unfold headerSetRef at he
  rw [Res.check_bind_eq_ok] at he
  exact ⟨of_decide_eq_true he.1, he.2⟩

/-- A field is replaced. -/
theorem set_len_replace {pfx : Bytes} {h h' : Hdr} {n v o : Bytes} (hs : SortedF h.fields) (he : headerSet h n v = .ok h')
    (ho : headerGet h n = some o) : (headerSerialize pfx h').length + o.length = (headerSerialize pfx h).length + v.length := by
  obtain ⟨-, h1, -, -, -, h2⟩ := headerSet_inv hs he
  rw [serialize_length, serialize_length, h1]
  rcases h2 with ⟨a, -⟩ | ⟨o', a, b⟩
  · rw [ho] at a; cases a
  · rw [ho] at a; cases a; omega

/-- A field is added. -/
theorem set_len_add {pfx : Bytes} {h h' : Hdr} {n v : Bytes} (hs : SortedF h.fields) (he : headerSet h n v = .ok h')
    (ho : headerGet h n = none) : (headerSerialize pfx h').length = (headerSerialize pfx h).length + headerLen n v := by
  obtain ⟨-, h1, -, -, -, h2⟩ := headerSet_inv hs he
  rw [serialize_length, serialize_length, h1, headerLen]
  rcases h2 with ⟨-, b⟩ | ⟨o', a, b⟩
  · omega
  · rw [ho] at a; cases a

theorem setId_len {pfx : Bytes} {h h' : Hdr} (h1 : h'.fields = h.fields) (h2 : h'.id.length = h.id.length) :
    (headerSerialize pfx h').length = (headerSerialize pfx h).length := by
  rw [serialize_length, serialize_length, h1, h2]

theorem get_of_fields {h h' : Hdr} (h1 : h'.fields = h.fields) (m : Bytes) : headerGet h' m = headerGet h m := by
  rw [headerGet_eq, headerGet_eq, h1]

theorem storeStep {sl sl' : Sl} {d : Bytes} (h : store sl d = .ok sl') :
    sl' = { sl with hold := sl.hold ++ d } ∧ 0 < d.length ∧ d.length ≤ 2 ^ 20 := by
  unfold store at h
  rw [Res.check_bind_eq_ok, Res.check_bind_eq_ok] at h
  obtain ⟨h1, h2, h3⟩ := h
  simp only [Res.pure_eq, Res.ok.injEq] at h3
  exact ⟨h3.symm, of_decide_eq_true h1, of_decide_eq_true h2⟩

theorem storeFit_inv {max : Nat} {sl sl' : Sl} {d : Bytes} (h : storeFit max sl d = .ok sl') :
    sl' = { sl with hold := sl.hold ++ d } ∧ 0 < d.length ∧ (sl.hold ++ d).length ≤ max := by
  unfold storeFit at h
  rw [Res.check_bind_eq_ok] at h
  obtain ⟨h1, h2⟩ := h
  obtain ⟨s1, s2, s3⟩ := storeStep h2
  refine ⟨s1, s2, ?_⟩
  have h1 := of_decide_eq_true h1
  unfold getSpace at h1
  rw [List.length_append]
  split at h1 <;> omega

/-- `Wsilo_Header` reserves room for the header. -/
theorem wsiloHeader_inv {env : Env} {sl sl' : Sl} {hd : Hdr} {pad0 : Nat} (h : wsiloHeader env sl hd pad0 = .ok sl') (hp : 0 < pad0) :
    sl' = { sl with hold := sl.hold ++ env.pack0 (headerSerialize env.pfx hd) ++ List.replicate (pad0 + 6) 95, hd := hd, hdStart := sl.hold.length, idx := sl.idx ||| typeFlag hd, hdLen := (env.pack0 (headerSerialize env.pfx hd)).length + (pad0 + 6) } ∧
    sl.hdStart = 0 ∧ sl'.hold.length < env.max := by
  unfold wsiloHeader at h
  simp only [gt_iff_lt, hp, if_true] at h
  simp only [Res.bind_eq_ok, Res.check_eq_ok, exists_const, Res.pure_eq, Res.ok.injEq] at h
  obtain ⟨h1, h2, h3, sl1, h4, h5, sl2, h6, h7⟩ := h
  obtain ⟨rfl, -, -⟩ := storeStep h4
  obtain ⟨rfl, -, -⟩ := storeStep h6
  have hl : headerLen b!"z" b!"_" = 6 := rfl
  rw [hl] at h7 h5
  refine ⟨h7.symm, of_decide_eq_true h1, ?_⟩
  rw [← h7]
  have h5 := of_decide_eq_true h5
  unfold getSpace at h5
  simp only at h5 ⊢
  rw [List.length_append, List.length_replicate]
  split at h5 <;> omega

/-- `Wsilo_Finish` changes 8 bytes of the hold file. -/
theorem wsiloFinish_inv {sl sl' : Sl} (h : wsiloFinish sl = .ok sl') :
    ∃ f, sl' = { sl with hold := f } ∧ f.length = sl.hold.length ∧ sl.hdStart + sl.hdLen + 24 < sl.hold.length ∧
      f = sl.hold.take (sl.hdStart + sl.hdLen + 16) ++ leEnc 8 (ofInt64 ((sl.hold.length : Int) - (sl.hdStart + sl.hdLen + 24))) ++
        sl.hold.drop (sl.hdStart + sl.hdLen + 24) := by
  unfold wsiloFinish at h
  simp only [Res.bind_eq_ok, Res.pure_eq, Res.ok.injEq] at h
  obtain ⟨f, h1, h2⟩ := h
  refine ⟨f, h2.symm, ?_⟩
  unfold writeAa at h1
  rw [Res.check_bind_eq_ok] at h1
  obtain ⟨h3, h1⟩ := h1
  simp only [Res.bind_eq_ok, Res.check_eq_ok, exists_const, Res.pure_eq, Res.ok.injEq] at h1
  obtain ⟨h4, g, -, -, h5⟩ := h1
  have h3 := of_decide_eq_true h3
  refine ⟨?_, by omega, h5.symm⟩
  rw [← h5]
  simp only [List.length_append, List.length_take, List.length_drop]
  have : (leEnc 8 (ofInt64 ((sl.hold.length : Int) - (sl.hdStart + sl.hdLen + 24)))).length = 8 := rfl
  omega

/-- What `Wsilo_Commit` makes of the hold file if it does not abort. -/
theorem finalHold_inv {env : Env} {sl : Sl} {f : Bytes} (h : finalHold env sl = .ok f) :
    ∃ h', (h' = sl.hd ∨ ∃ n, headerSet sl.hd b!"z" (List.replicate n 95) = .ok h') ∧
      (env.pack0 (headerSerialize env.pfx h')).length = sl.hdLen ∧
      f = sl.hold.take sl.hdStart ++ env.pack0 (headerSerialize env.pfx h') ++ sl.hold.drop (sl.hdStart + sl.hdLen) := by
  unfold finalHold at h
  simp only [Res.bind_eq_ok, Res.check_eq_ok, exists_const, Res.pure_eq, Res.ok.injEq] at h
  obtain ⟨h', h1, h2, h3⟩ := h
  refine ⟨h', ?_, of_decide_eq_true h2, h3.symm⟩
  unfold padHeader at h1
  simp only at h1
  split at h1
  · simp only [Res.check_bind_eq_ok] at h1
    exact .inr ⟨_, h1.2⟩
  · exact .inl (Res.ok.inj h1).symm

end Verif.Wsilo
