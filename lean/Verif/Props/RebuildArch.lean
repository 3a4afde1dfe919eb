/-
Property C67 for archives: whatever has been stored, rebuilding the silos loses nothing, and the audit has nothing to say about the new ones.
-/
import Verif.Props.Rebuild
import Verif.Props.AuditArch

namespace Verif.Props
open Verif Header Gzip Wsilo Segjob Spec Inflate Rsilo Commit
open _root_.Verif.Rebuild (Cfg rebuildSilo mainRebuild)

theorem lookup_undropped {m : Bytes} (hm : ¬ Dropped m) : ∀ fs : List (Bytes × Bytes), lookup m (fs.filter fun f => ¬ Dropped f.1) = lookup m fs
  | [] => rfl
  | f :: fs => by
    rw [List.filter_cons]
    by_cases hf : Dropped f.1
    · rw [if_neg (by simp [hf]), lookup_undropped hm fs, lookup_cons, if_neg]
      intro he
      have h1 := strcasecmp_congr (_root_.Verif.strcasecmp_eq.1 he) (rfl : (b!"Content-Length-GZIP").map toLower = _)
      have h2 := strcasecmp_congr (_root_.Verif.strcasecmp_eq.1 he) (rfl : (b!"z").map toLower = _)
      unfold Dropped at hm hf
      rw [h1, h2] at hm
      exact hm hf
    · rw [if_pos (by simp [hf]), lookup_cons, lookup_cons, lookup_undropped hm fs]

theorem again_get {c : Cfg} {x y : Rec × Hdr} (h : Again c x y) (hn : ¬ Old x.2) {m : Bytes} (hm : ¬ Dropped m) : headerGet y.2 m = headerGet x.2 m := by
  rw [headerGet_eq, headerGet_eq, h.fields hn, lookup_undropped hm]

theorem again_intact {c : Cfg} {x y : Rec × Hdr} (h : Again c x y) (hn : ¬ Old x.2) {ign : Bool} (hi : Intact c.env.sha c.env.idSize ign x.2 x.1.data) :
    Intact c.env.sha c.env.idSize ign y.2 y.1.data := by
  have g {m : Bytes} (hm : ¬ Dropped m) := again_get h hn hm
  refine ⟨?_, ?_, ?_, ?_⟩
  · rw [g (by decide), h.data]; exact hi.digest
  · rw [g (by decide), h.data]; exact hi.length
  · unfold HasIdentity
    rw [g (by decide), g (by decide), g (by decide), h.data, h.id hn]
    exact hi.ident
  · intro t
    rw [g (by decide)]
    exact hi.number t

/-- A record of the archive that `rebuild` can deal with: no old one; the header fits the buffer, and `inflate` does not fill the output buffer with the contents. -/
structure Usual (c : Cfg) (cut : Nat → Bytes → List Bytes) (x : Rec × Hdr) : Prop where
  new : ¬ Old x.2
  room : x.1.text.length + 1 < c.bufsiz
  size : x.1.data.length < 2 ^ 60
  small : ∀ n, ∀ p ∈ cut n x.1.data, p.length < 16 * c.env.ps

theorem arch_fit {c : Cfg} {cut : Nat → Bytes → List Bytes} {g : Bool} {w : World} {ops : List IdxOp} {A : List Item} (h1 : ArchInv c.env w ops A) {x : Item} (hx : x ∈ A)
    (hi : Intact c.env.sha c.env.idSize g x.hdr x.record.data) (hu : Usual c cut (x.record, x.hdr)) : Fit c cut (x.record, x.hdr) := by
  obtain ⟨t1, t2⟩ := h1.text x hx
  have h60 : 2 ^ 60 < 2 ^ 63 := by decide
  refine ⟨(h1.there x hx).2.1, ?_, hu.room, t2, number_dec hi.length (Nat.lt_trans hu.size h60), hu.size, hu.small⟩
  show ∃ s, x.record.text = _
  rw [t1]
  exact serialize_blank _ _

theorem each_hdrs {c : Cfg} {xs ys : List (Rec × Hdr)} (h : Each (Again c) xs ys) (hn : ∀ x ∈ xs, ¬ Old x.2) :
    ys.map (fun y => (y.2.id, y.2.fields, y.1.data)) = xs.map fun x => (x.2.id, x.2.fields.filter fun f => ¬ Dropped f.1, x.1.data) := by
  induction h with
  | nil => rfl
  | cons h _ ih =>
    have hx := hn _ (List.mem_cons_self ..)
    rw [List.map_cons, List.map_cons, ih (fun x h => hn x (List.mem_cons_of_mem _ h)), h.id hx, h.fields hx, h.data]

theorem apsOf_content (n : Nat) (l : List (Rec × Hdr)) : ∀ off, (apsOf n off l).map (fun a => (a.hdr, a.content)) = l.map fun x => (x.2, x.1.data) := by
  induction l with
  | nil => intro off; rfl
  | cons x l ih => intro off; simp [apsOf, apOf, ih]

/-- C67 for archives: whatever has been stored, a silo whose records `rebuild` can deal with is rebuilt; the audit reads the new silo to the end and finds nothing wrong with any record; and the
records it finds have the IDs, the contents and the fields, but for `z` and `Content-Length-GZIP`, of the records of the archive that are in this silo, in the same order. -/
theorem C67_archive_partial {σ τ : Type} {c : Cfg} {D : Deflater σ} {E : Deflater τ} (hz : Zlib E) (he : EnvOk c.env) (hR : Refill D (16 * c.env.ps) c.osz) {g : Bool} {w0 w : World}
    (hw0 : w0.dir = {}) (hs0 : ∀ n, w0.silos n = none) (hl : Stores c.env E g w0 w) {cut : Nat → Bytes → List Bytes} (hcut : ∀ n d, (cut n d).flatten = d) :
    ∃ ops A, ArchInv c.env w ops A ∧ (A.length < 2 ^ 31 → ∀ n f, w.silos n = some f → ∃ X : List Item, X.Perm (A.filter fun x => x.entry.silo = n) ∧
      f.data = siloBytes (X.map (·.record)) ∧ ((∀ x ∈ X, Usual c cut (x.record, x.hdr)) →
      ∃ file l, rebuildSilo c D cut .start f.data = .ok (.start, file) ∧
        (∀ (cut' : Bytes → List Bytes) (fuel : Nat), (∀ b, (cut' b).flatten = b) → file.length < fuel →
          Audit.auditSilo c.env.ps c.env.pfx cut' c.env.sha c.env.idSize g n fuel file = .ok l) ∧
        (∀ a ∈ l, a.2.1 = []) ∧
        l.map (fun a => (a.1.hdr.id, a.1.hdr.fields, a.1.content)) = X.map fun x => (x.hdr.id, x.hdr.fields.filter fun f => ¬ Dropped f.1, x.record.data))) := by
  obtain ⟨ops, A, P, objs, I, h1, h2, h3⟩ := stores_inv hz he hl hw0 hs0
  refine ⟨ops, A, h1, fun hfew n f hf => ?_⟩
  obtain ⟨X, x1, x2, -⟩ := h2 n f hf
  refine ⟨X, x1, x2, fun hu => ?_⟩
  have hA : ∀ x ∈ X, x ∈ A := fun x hx => (List.mem_filter.1 (x1.mem_iff.1 hx)).1
  have hi := parts_intact h3 hfew
  have hfit : ∀ y ∈ X.map fun x => (x.record, x.hdr), Fit c cut y ∧ ¬ Old y.2 ∧ Intact c.env.sha c.env.idSize g y.2 y.1.data := by
    intro y hy
    obtain ⟨x, hx, rfl⟩ := List.mem_map.1 hy
    exact ⟨arch_fit h1 (hA x hx) (hi x (hA x hx)) (hu x hx), (hu x hx).new, hi x (hA x hx)⟩
  obtain ⟨ys, y1, y2⟩ := C67_rebuild_partial c D cut he hR hcut _ (fun y hy => ⟨(hfit y hy).1, fun ho => absurd ho (hfit y hy).2.1⟩)
  have hys : ∀ y ∈ ys, y.1.Complete c.env.pfx y.2 ∧ y.1.Fits c.env.ps ∧ Intact c.env.sha c.env.idSize g y.2 y.1.data := by
    intro y hy
    obtain ⟨x, hx, h⟩ := y1.right y hy
    exact ⟨h.complete, h.fits, again_intact h (hfit x hx).2.1 (hfit x hx).2.2⟩
  have e1 : f.data = siloBytes ((X.map fun x => (x.record, x.hdr)).map (·.1)) := by rw [x2, List.map_map]; rfl
  refine ⟨_, (apsOf n 0 ys).map fun a => (a, [], segOfHdr a.hdr), by rw [e1]; exact y2, fun cut' fuel hc' hf' => ?_, ?_, ?_⟩
  · have hlen := rb_siloBytes_length ys
    have := auditLoop_intact (ps := c.env.ps) (pfx := c.env.pfx) hc' (silo := n) ys [] fuel 0 hys (by omega)
    simpa [Audit.auditSilo, Rsilo.rsOpen] using this
  · intro a ha
    obtain ⟨b, -, rfl⟩ := List.mem_map.1 ha
    rfl
  · have e2 := each_hdrs y1 (fun y hy => (hfit y hy).2.1)
    rw [List.map_map] at e2
    have e3 := congrArg (List.map fun p : Hdr × Bytes => (p.1.id, p.1.fields, p.2)) (apsOf_content n ys 0)
    rw [List.map_map, List.map_map] at e3
    rw [List.map_map]
    exact e3.trans e2

end Verif.Props
