/-
Properties C32, C35 and C49 for the whole archive: what is stored can be got back, and is stored once.
-/
import Verif.Proofs.Store
import Verif.Proofs.Mksilo

namespace Verif.Props
open Verif Header Gzip Ident Index Wsilo Segjob Getjob Spec Inflate
open _root_.Verif.Commit (upd Silo)

/-- The header a store job may be started with: sorted, clean and short, with none of the fields the job adds. -/
def GoodJob (env : Env) (h : Hdr) : Prop := JobHdr env.idSize h ∧ Neat h ∧ Short env h

/-- The input of a store job: some non-empty pieces, not too much. -/
def GoodInput (env : Env) (cs : List Bytes) : Prop := cs ≠ [] ∧ (∀ c ∈ cs, c ≠ []) ∧ cs.flatten.length + env.max < 2 ^ 63

/-! ### Looking up depends on the silos and the index only -/

theorem openRec_congr {ps : Nat} {pfx : Bytes} {w w' : World} (hs : w'.silos = w.silos) : openRec ps pfx w' = openRec ps pfx w := by
  funext silo off
  unfold openRec
  rw [hs]

theorem getjobIter_congr {ps : Nat} {pfx : Bytes} {idSize : Nat} {w w' : World} (hs : w'.silos = w.silos) :
    getjobIter ps pfx idSize w' = getjobIter ps pfx idSize w := by
  funext r e
  cases r with
  | ok gj =>
    unfold getjobIter verdict
    rw [openRec_congr hs]
  | fail => rfl
  | ub => rfl

theorem getLoop_congr {ps : Nat} {pfx : Bytes} {idSize : Nat} {w w' : World} (hs : w'.silos = w.silos) (hd : w'.dir = w.dir) (fuel : Nat) :
    ∀ nid gj, getLoop ps pfx idSize w' fuel nid gj = getLoop ps pfx idSize w fuel nid gj := by
  induction fuel with
  | zero => intro _ _; rfl
  | succ fuel ih =>
    intro nid gj
    simp only [getLoop, getjobIter_congr hs, hd, ih]

theorem getjobNew_congr {ps : Nat} {pfx : Bytes} {idSize fuel : Nat} {w w' : World} (hs : w'.silos = w.silos) (hd : w'.dir = w.dir) (id : Bytes) :
    getjobNew ps pfx idSize fuel w' id = getjobNew ps pfx idSize fuel w id := by
  unfold getjobNew
  split
  · rfl
  · exact getLoop_congr hs hd fuel _ _

/-! ### One store -/

/-- The object with this ID and these contents is among the records: `x` is its first segment, `ys` are the others. -/
def Holds (env : Env) (A : List Item) (id payload : Bytes) (x : Item) (ys : List Item) : Prop :=
  IsObject env.pfx A id x ys ∧ ((x :: ys).map (·.record.data)).flatten = payload ∧ ∀ y ∈ x :: ys, Segment y.record.bgz y.record.data

theorem holds_mono {env : Env} {A B : List Item} {id payload : Bytes} {x : Item} {ys : List Item} (h : ∀ x ∈ A, x ∈ B)
    (ho : Holds env A id payload x ys) : Holds env B id payload x ys := ⟨object_mono h ho.1, ho.2⟩

/-- What a successful store does.  Either the ID was found and neither silos nor index change, or the object's
segments (and warcinfo records) are added. -/
theorem store_adds {σ : Type} {env : Env} {D : Deflater σ} (hz : Zlib D) (he : EnvOk env) {fuel : Nat} {w w' : World} {h : Hdr} (hj : GoodJob env h)
    {ident : Option Bytes} {cs : List Bytes} (hc : GoodInput env cs) {uri : Bytes} {ops : List IdxOp} {A : List Item} (ha : ArchInv env w ops A)
    (e : storeObj env D fuel w h ident cs = .ok (w', uri)) :
    ∃ id, uri = env.pfx ++ id ∧ idxValidId env.pfx env.idSize uri = .ok id ∧ ObjectId env h ident cs.flatten id ∧
      ((∃ gj, getjobNew env.ps env.pfx env.idSize fuel w id = .ok (.job gj)) ∧ w'.silos = w.silos ∧ w'.dir = w.dir ∧ w'.cacheFile = w.cacheFile ∧
        (∀ n, w'.holds n = w.holds n ∨ w'.holds n = false) ∨
       (∀ gj, getjobNew env.ps env.pfx env.idSize fuel w id ≠ .ok (.job gj)) ∧
       ∃ is X x ys, ArchInv env w' (ops ++ is) (A ++ X) ∧ Grown w.silos w'.silos ∧ Holds env (A ++ X) id cs.flatten x ys ∧ x.hdr.id = id ∧
        (∀ y ∈ x :: ys, y ∈ X) ∧ (∀ z ∈ X, z ∈ x :: ys ∨ FlWarcinfo z.entry.flags = true) ∧ Adds env h w.silos w'.silos X x ys) := by
  unfold storeObj segjobCommit at e
  simp only [Res.bind_eq_ok] at e
  obtain ⟨sj, e0, ⟨w1, sj1⟩, e1, ⟨w2, sj2⟩, e2, e3⟩ := e
  simp only at e2 e3
  obtain ⟨a1, a2, a3, a4, a5, a6⟩ := fed_inv hz he.max hc.1 hc.2.1 e0 e1 e2
  have hp := a1.payload
  rw [a5] at hp
  simp only [curContent, Option.map_none, Option.getD_none, List.append_nil] at hp
  have hnd := a1.rising.1
  rw [a5] at hnd
  simp only [curNo, Option.map_none, Option.toList_none, List.append_nil] at hnd
  have hn : nos sj2 = sj2.segs.map (·.silo.no) := by unfold nos; rw [a5]; simp [curNo]
  rw [hn] at a6
  have ha2 := archInv_same (w' := w2) ha a6.dir a6.silos
  obtain ⟨id, b1, b2, b3, b4, b5, b6⟩ := commitJob_adds he (by rw [a3]; exact hj.1) (by rw [a3]; exact hj.2.1) (by rw [a3]; exact hj.2.2) a1.segs hp a1.size
    (by rw [a2]; exact hc.2.2) hnd ha2 e3
  rw [a2, a3, a4] at b5
  rw [a2] at b6
  refine ⟨id, b1, b2, b5, ?_⟩
  simp only [getjobNew_congr a6.silos a6.dir] at b6
  rcases b6 with ⟨b6, rfl⟩ | ⟨b6, is, X, x, ys, c1, c2, c3, c4, c5, c6, c7, -, c9, c10⟩
  · obtain ⟨d1, d2, d3, d4⟩ := destroy_same sj2.segs w2
    refine .inl ⟨b6, by rw [d1, a6.silos], by rw [d2, a6.dir], by rw [d3, a6.cacheFile], fun n => ?_⟩
    rw [d4]
    split
    · exact .inr rfl
    · rename_i hm
      exact .inl (a6.holds n hm)
  · exact .inr ⟨b6, is, X, x, ys, c1, by rw [← a6.silos]; exact c2, ⟨c3, c6, c7⟩, c9, c4, c5, by rw [← a6.silos, ← a3]; exact c10⟩

/-! ### Later -/

/-- What may happen to an archive: objects are stored (by any number of processes, one after the other), the index
is housekept, silos are made with `mksilo`, and silos are write-protected, cache numbers forgotten, or old hold files removed. -/
inductive Later {σ : Type} (env : Env) (D : Deflater σ) : World → World → Prop where
  | refl (w : World) : Later env D w w
  | store {w w1 w2 : World} {fuel : Nat} {h : Hdr} {ident : Option Bytes} {cs : List Bytes} {uri : Bytes} :
      Later env D w w1 → GoodJob env h → GoodInput env cs → storeObj env D fuel w1 h ident cs = .ok (w2, uri) → Later env D w w2
  | housekeep {w w1 : World} {n : Nat} {d : Dir} : Later env D w w1 → n % 32 = 0 → 0 < n → idxResort n w1.dir = .ok d →
      Later env D w { w1 with dir := d }
  | mksilo {w w1 w2 : World} {n : Nat} {out : Mksilo.Out} : Later env D w w1 → n < 2 ^ 32 → Mksilo.mksilo env w1 n = .ok (w2, out) → Later env D w w2
  | other {w w1 w2 : World} : Later env D w w1 → w2.dir = w1.dir → (∀ n, (w2.silos n).map (·.data) = (w1.silos n).map (·.data)) →
      Later env D w w2

theorem later_inv {σ : Type} {env : Env} {D : Deflater σ} (hz : Zlib D) (he : EnvOk env) {w w' : World} (hl : Later env D w w') {ops : List IdxOp}
    {A : List Item} (ha : ArchInv env w ops A) : ∃ is X, ArchInv env w' (ops ++ is) (A ++ X) ∧ Grown w.silos w'.silos := by
  induction hl with
  | refl => exact ⟨[], [], by simpa using ha, grown_refl _⟩
  | store _ hj hc e ih =>
    obtain ⟨is, X, h1, h2⟩ := ih
    obtain ⟨id, -, -, -, ⟨-, s1, s2, -⟩ | ⟨-, is2, X2, x, ys, a1, a2, -⟩⟩ := store_adds hz he hj hc h1 e
    · exact ⟨is, X, archInv_same h1 s2 s1, by rw [s1]; exact h2⟩
    · exact ⟨is ++ is2, X ++ X2, by rw [← List.append_assoc, ← List.append_assoc]; exact a1, grown_trans h2 a2⟩
  | housekeep _ hn hp e ih =>
    rename_i w1 n d _
    obtain ⟨is, X, h1, h2⟩ := ih
    refine ⟨is ++ [.housekeep n], X, ⟨?_, ?_, ?_, h1.there, h1.text⟩, h2⟩
    · rw [← List.append_assoc, runOps_append, h1.dir]
      simp only [Res.ok_bind, runOps, e]
    · intro o ho
      rw [← List.append_assoc] at ho
      rcases List.mem_append.1 ho with h | h
      · exact h1.valid o h
      · rw [List.mem_singleton] at h
        rw [h]; exact ⟨hn, hp⟩
    · rw [← List.append_assoc, inserts_append]
      simpa [inserts] using h1.entries
  | mksilo _ hn e ih =>
    obtain ⟨is, X, h1, h2⟩ := ih
    rcases mksilo_adds he h1 hn e with ⟨-, rfl, -⟩ | ⟨-, -, -, -, is2, y, a1, -, -, -, -, a2, -⟩
    · exact ⟨is, X, h1, h2⟩
    · exact ⟨is ++ is2, X ++ [y], by rw [← List.append_assoc, ← List.append_assoc]; exact a1, grown_trans h2 a2⟩
  | other _ hd hs ih =>
    rename_i w1 w2 _
    obtain ⟨is, X, h1, h2⟩ := ih
    have hg : Grown w1.silos w2.silos := by
      intro n f hf
      have := hs n
      rw [hf] at this
      cases h : w2.silos n with
      | none => rw [h] at this; cases this
      | some g =>
        rw [h] at this
        simp only [Option.map_some, Option.some.injEq] at this
        exact ⟨g, [], rfl, by simp [this]⟩
    exact ⟨is, X, ⟨by rw [hd]; exact h1.dir, h1.valid, h1.entries, fun x hx => at_grown hg (h1.there x hx), h1.text⟩, grown_trans h2 hg⟩

/-! ### C32 -/

/-- No clash in the archive: no other record has the object's ID, no other records come in between its segments,
and the search of the sorted index file is safe for the keys in question (C03). -/
structure Clear (env : Env) (w : World) (A : List Item) (id : Bytes) (x : Item) (ys : List Item) : Prop where
  first : OnlyFirst A id x
  chain : OnlyChain env.pfx env.idSize A id x ys
  few : A.length < 2 ^ 31
  seek : ∀ F, w.dir.sorted = some F → SeekSafe F id ∧ ∀ y ∈ x :: ys, SeekSafe F y.entry.cont

theorem isHex_lower {c : UInt8} (h : isHex c = true) : isHex (toLower c) = true := by
  have tbl : ∀ n : Fin 256, isHex (UInt8.ofNat n) = true → isHex (toLower (UInt8.ofNat n)) = true := by
    set_option maxRecDepth 20000 in decide
  have := tbl ⟨c.toNat, c.toNat_lt⟩
  simp only [UInt8.ofNat_toNat] at this
  exact this h

theorem padKey_hex {n : Nat} {id : Bytes} (h : ∀ c ∈ id, isHex c = true) : (∀ c ∈ padKey n id, isHex c = true) ∧ (padKey n id).length = n := by
  unfold padKey
  constructor
  · intro c hc
    rcases List.mem_append.1 hc with hc | hc
    · obtain ⟨d, hd, rfl⟩ := List.mem_map.1 (List.mem_of_mem_take hc)
      exact isHex_lower (h d hd)
    · rw [(List.mem_replicate.1 hc).2]; decide
  · simp only [List.length_append, List.length_take, List.length_replicate]
    omega

theorem arch_finds {env : Env} {w : World} {ops : List IdxOp} {A : List Item} (ha : ArchInv env w ops A) (hne : A ≠ []) (hfew : A.length < 2 ^ 31)
    {k : Bytes} (hk : ∀ c ∈ k, isHex c = true) (h8 : 8 ≤ k.length) (hs : ∀ F, w.dir.sorted = some F → SeekSafe F k) : Finds w.dir A k := by
  have hl : (inserts ops).length = A.length := by
    have := congrArg List.length ha.entries
    simpa using this
  refine finds_history ops ha.valid (by omega) ?_ ha.dir ?_ hk h8 hs
  · intro h0
    rw [h0] at hl
    exact hne (List.length_eq_zero_iff.1 hl.symm)
  · intro e
    have h1 : e ∈ (inserts ops).map Ins.entry ↔ e ∈ A.map (·.entry) := by rw [ha.entries]
    simp only [List.mem_map] at h1
    exact h1.symm

theorem arch_cont {env : Env} {w : World} {ops : List IdxOp} {A : List Item} (ha : ArchInv env w ops A) {x : Item} (hx : x ∈ A) :
    (∀ c ∈ x.entry.cont, isHex c = true) ∧ x.entry.cont.length = 8 := by
  have h1 : x.entry ∈ (inserts ops).map Ins.entry := by rw [ha.entries]; exact List.mem_map_of_mem hx
  obtain ⟨i, hi, he⟩ := List.mem_map.1 h1
  have hv : i.Valid := by
    have hm : ∀ (ops : List IdxOp), (∀ o ∈ ops, o.Valid) → ∀ i ∈ inserts ops, i.Valid := by
      intro ops
      induction ops with
      | nil => intro _ i hi; cases hi
      | cons o ops ih =>
        intro h i hi
        cases o with
        | insert j =>
          rcases List.mem_cons.1 hi with rfl | hi
          · exact h (.insert i) (by simp)
          · exact ih (fun o ho => h o (by simp [ho])) i hi
        | housekeep n => exact ih (fun o ho => h o (by simp [ho])) i hi
    exact hm ops ha.valid i hi
  rw [← he]
  show (∀ c ∈ padKey 8 _, _) ∧ (padKey 8 _).length = 8
  apply padKey_hex
  intro c hc
  cases hco : i.cont with
  | none => rw [hco] at hc; cases hc
  | some k => rw [hco] at hc; exact hv.2.2.2.2 k hco c hc

theorem finds_chain {d : Dir} {A : List Item} (ys : List Item) : ∀ x, (∀ y ∈ x :: ys, Finds d A y.entry.cont) → FindsChain d A x ys := by
  induction ys with
  | nil => intro _ _; trivial
  | cons y ys ih => intro x h; exact ⟨h x (by simp), ih y (fun z hz => h z (by simp [hz]))⟩

theorem gettable_of {env : Env} (he : EnvOk env) {w : World} {ops : List IdxOp} {A : List Item} (ha : ArchInv env w ops A) {id : Bytes}
    (hid : ∀ c ∈ id, isHex c = true) (hl : id.length = env.idSize) {x : Item} {ys : List Item} (ho : IsObject env.pfx A id x ys)
    (hc : Clear env w A id x ys) : Gettable env.ps env.pfx env.idSize w A id x ys := by
  have hne : A ≠ [] := by intro h; have := ho.1; rw [h] at this; cases this
  refine ⟨ha.there, ho, hc.first, hc.chain, ?_, ?_⟩
  · exact arch_finds ha hne hc.few hid (by have := he.idSize; omega) (fun F hF => (hc.seek F hF).1)
  · apply finds_chain
    intro y hy
    obtain ⟨c1, c2⟩ := arch_cont ha (object_mem ho y hy)
    exact arch_finds ha hne hc.few c1 (by omega) (fun F hF => (hc.seek F hF).2 y hy)

/-- C32: an object that was stored stays in the archive: however many objects are stored later, and however often the index
is housekept, the records of the archive include the object's segments; and if no record clashes with it, getting its ID,
in any form, delivers exactly what was stored. -/
theorem C32_stored_partial {σ : Type} {env : Env} {D : Deflater σ} (hz : Zlib D) (he : EnvOk env) {fuel : Nat} {w0 w w1 w2 : World} (hw0 : w0.dir = {})
    (hl0 : Later env D w0 w) {h : Hdr} (hj : GoodJob env h) {ident : Option Bytes} {cs : List Bytes} (hc : GoodInput env cs) {uri : Bytes}
    (e : storeObj env D fuel w h ident cs = .ok (w1, uri)) (hl : Later env D w1 w2)
    (hnew : ∀ gj, getjobNew env.ps env.pfx env.idSize fuel w uri ≠ .ok (.job gj)) :
    ∃ id ops A x ys, uri = env.pfx ++ id ∧ ArchInv env w2 ops A ∧ Holds env A id cs.flatten x ys ∧
      (Clear env w2 A id x ys → ∀ q, idxValidId env.pfx env.idSize q = .ok id → ∀ fuel2, ys.length < fuel2 →
        ∃ gj, getjobNew env.ps env.pfx env.idSize fuel2 w2 q = .ok (.job gj) ∧
          ∀ cut : Bytes → List Bytes, (∀ b, (cut b).flatten = b) → getjobIterate env.ps cut gj collect [] false = .ok cs.flatten) := by
  have h0 : ArchInv env w0 [] [] := ⟨by rw [hw0]; rfl, fun o ho => (by cases ho), rfl, fun x hx => (by cases hx), fun x hx => (by cases hx)⟩
  obtain ⟨is, X, ha, -⟩ := later_inv hz he hl0 h0
  obtain ⟨id, u1, u2, -, u4⟩ := store_adds hz he hj hc ha e
  obtain ⟨-, u6, u7⟩ := (C11_valid_id _ _ _ _).1 u2
  have hsame : getjobNew env.ps env.pfx env.idSize fuel w id = getjobNew env.ps env.pfx env.idSize fuel w uri := by
    have hb : idxValidId env.pfx env.idSize id = .ok id := by
      obtain ⟨p, hp⟩ := he.slash
      exact valid_bare _ _ _ (by rw [hp]; simp) u6 u7
    unfold getjobNew
    rw [hb, u2]
  rcases u4 with ⟨⟨gj, u4⟩, -⟩ | ⟨-, is2, X2, x, ys, a1, -, a3, -⟩
  · rw [hsame] at u4
    exact absurd u4 (hnew gj)
  · obtain ⟨is3, X3, b1, -⟩ := later_inv hz he hl a1
    have hh := holds_mono (B := [] ++ X ++ X2 ++ X3) (fun x hx => List.mem_append_left _ hx) a3
    refine ⟨id, _, _, x, ys, u1, b1, hh, ?_⟩
    intro hcl q hq fuel2 hf
    obtain ⟨gj, g1, -, g3, -⟩ := C33_get_partial (gettable_of he b1 u6 u7 hh.1 hcl) hq hf
    exact ⟨gj, g1, fun cut hcut => by rw [g3 cut hcut, hh.2.1]⟩

/-! ### C35 -/

/-- C35: storing an object whose ID is found changes neither silos nor index nor the cache file, and leaves no hold file
behind; the ID returned depends on the type, the reference and the contents only, so storing the same object again, cut up
in any way, returns the same ID. -/
theorem C35_store_once {σ : Type} {env : Env} {D : Deflater σ} (hz : Zlib D) (he : EnvOk env) {fuel fuel' : Nat} {w0 w w' v v' : World} (hw0 : w0.dir = {})
    (hl0 : Later env D w0 w) (hlv : Later env D w0 v) {h g : Hdr} (hj : GoodJob env h) (hg : GoodJob env g) {ident : Option Bytes} {cs ds : List Bytes}
    (hc : GoodInput env cs) (hd : GoodInput env ds) {uri uri' : Bytes} (hsame : cs.flatten = ds.flatten)
    (ht : headerGet g b!"WARC-Type" = headerGet h b!"WARC-Type") (hr : headerGet g b!"WARC-Refers-To" = headerGet h b!"WARC-Refers-To")
    (e : storeObj env D fuel w h ident cs = .ok (w', uri)) (e' : storeObj env D fuel' v g ident ds = .ok (v', uri')) :
    uri' = uri ∧ ((∃ gj, getjobNew env.ps env.pfx env.idSize fuel' v uri = .ok (.job gj)) →
      v'.silos = v.silos ∧ v'.dir = v.dir ∧ v'.cacheFile = v.cacheFile ∧ ∀ n, v'.holds n = v.holds n ∨ v'.holds n = false) := by
  have h0 : ArchInv env w0 [] [] := ⟨by rw [hw0]; rfl, fun o ho => (by cases ho), rfl, fun x hx => (by cases hx), fun x hx => (by cases hx)⟩
  obtain ⟨is, X, ha, -⟩ := later_inv hz he hl0 h0
  obtain ⟨is', X', ha', -⟩ := later_inv hz he hlv h0
  obtain ⟨id, u1, u2, u3, -⟩ := store_adds hz he hj hc ha e
  obtain ⟨id', v1, v2, v3, v4⟩ := store_adds hz he hg hd ha' e'
  have hid : id' = id := by
    unfold ObjectId at u3 v3
    have := identSet_transfer u3 ht hr
    rw [hsame, v3] at this
    have h2 := congrArg Hdr.id (Res.ok.inj this)
    exact h2
  subst hid
  have hu : uri' = uri := by rw [v1, u1]
  refine ⟨hu, ?_⟩
  rintro ⟨gj, hgj⟩
  obtain ⟨-, u6, u7⟩ := (C11_valid_id _ _ _ _).1 u2
  have heq : getjobNew env.ps env.pfx env.idSize fuel' v id' = getjobNew env.ps env.pfx env.idSize fuel' v uri := by
    have hb : idxValidId env.pfx env.idSize id' = .ok id' := by
      obtain ⟨p, hp⟩ := he.slash
      exact valid_bare _ _ _ (by rw [hp]; simp) u6 u7
    unfold getjobNew
    rw [hb, u2]
  rcases v4 with ⟨-, v4⟩ | ⟨v4, -⟩
  · exact v4
  · rw [heq] at v4
    exact absurd hgj (v4 gj)

/-- C49, for the whole store: the ID under which a resource is stored is the start of the SHA256 of all of its contents, no
matter in how many segments it is stored. -/
theorem C49_stored_id {σ : Type} {env : Env} {D : Deflater σ} (hz : Zlib D) (he : EnvOk env) {fuel : Nat} {w0 w w' : World} (hw0 : w0.dir = {})
    (hl0 : Later env D w0 w) {h : Hdr} (hj : GoodJob env h) {cs : List Bytes} (hc : GoodInput env cs) {uri : Bytes}
    (ht : headerGet h b!"WARC-Type" = some b!"resource")
    (e : storeObj env D fuel w h none cs = .ok (w', uri)) : uri = env.pfx ++ (env.sha cs.flatten).take env.idSize := by
  have h0 : ArchInv env w0 [] [] := ⟨by rw [hw0]; rfl, fun o ho => (by cases ho), rfl, fun x hx => (by cases hx), fun x hx => (by cases hx)⟩
  obtain ⟨is, X, ha, -⟩ := later_inv hz he hl0 h0
  obtain ⟨id, u1, -, u3, -⟩ := store_adds hz he hj hc ha e
  rw [u1]
  congr 1
  unfold ObjectId identSet at u3
  simp only [Res.bind_eq_ok] at u3
  obtain ⟨i, i1, i2⟩ := u3
  rw [C49_by_digest _ _ _ _ _ ht (.inl rfl)] at i1
  cases i1
  unfold headerSetId at i2
  simp only [Res.bind_eq_ok, Res.check_eq_ok, exists_const, Res.pure_eq, Res.ok.injEq] at i2
  obtain ⟨-, -, i3⟩ := i2
  have := congrArg Hdr.id i3
  simp only [List.take_take, Nat.min_self] at this
  exact this.symm

/-! ### C25 -/

/-- No silo is longer than the configured size. -/
def Bounded (env : Env) (w : World) : Prop := ∀ n f, w.silos n = some f → f.data.length ≤ env.max

theorem bounded_upd {env : Env} {s : Nat → Option Silo} (hb : ∀ n f, s n = some f → f.data.length ≤ env.max) {k : Nat} {g : Silo}
    (hg : g.data.length ≤ env.max) : ∀ n f, upd s k (some g) n = some f → f.data.length ≤ env.max := by
  intro n f h
  unfold upd at h
  split at h
  · cases h; exact hg
  · exact hb n f h

theorem install_bounded {env : Env} {w w' : World} {sl : Sl} {segd : Bool} {id : Bytes} {rid : Option Bytes} (h1 : sl.hdStart + sl.hdLen ≤ sl.hold.length)
    (h2 : sl.hold.length ≤ env.max) (hb : Bounded env w) (e : install env w sl segd id rid = .ok w') : Bounded env w' := by
  unfold install finalHold at e
  simp only [Res.bind_eq_ok, Res.check_eq_ok, exists_const, Res.pure_eq, Res.ok.injEq] at e
  obtain ⟨file, ⟨h, -, e2, e3⟩, fl, -, d1, -, d2, -, -, rfl⟩ := e
  have e2 := of_decide_eq_true e2
  unfold Bounded abandon
  simp only [(putCache_same _ _).1]
  refine bounded_upd hb ?_
  simp only
  rw [← e3]
  simp only [List.length_append, List.length_take, List.length_drop, e2]
  omega

theorem wsiloCommit_bounded {env : Env} {w w' : World} {sl : Sl} {segd : Bool} {id : Bytes} {rid : Option Bytes} (h1 : sl.hdStart + sl.hdLen ≤ sl.hold.length)
    (h2 : sl.hold.length ≤ env.max) (hb : Bounded env w) (e : wsiloCommit env w sl segd id rid = .ok w') : Bounded env w' := by
  unfold wsiloCommit at e
  split at e
  · rw [Res.bind_eq_ok] at e
    obtain ⟨⟨w1, r⟩, e1, e2⟩ := e
    by_cases hs : w.cache.firstSpace ≤ sl.no
    · rcases appendLoop_inv _ (by omega) e1 with ⟨rfl, sn, f, d, a1, -, -, -, a5, a6⟩ | ⟨rfl, a1, -⟩
      · simp only [if_true, Res.pure_eq, Res.ok.injEq] at e2
        subst e2
        unfold Bounded abandon
        simp only [a6]
        refine bounded_upd hb ?_
        simp only [List.length_append]
        exact a5
      · exact install_bounded h1 h2 (by unfold Bounded; rw [a1]; exact hb) (by simpa using e2)
    · rw [Nat.sub_eq_zero_of_le (by omega)] at e1
      cases e1
      exact install_bounded h1 h2 hb (by simpa using e2)
  · exact install_bounded h1 h2 hb e

theorem commitSegs_bounded {env : Env} {fid : Bytes} {size : Nat} (ss : List Seg) : ∀ {w w' : World},
    (∀ s ∈ ss, s.silo.hdStart + s.silo.hdLen ≤ s.silo.hold.length ∧ s.silo.hold.length ≤ env.max) → Bounded env w →
    commitSegs env fid size ss w = .ok w' → Bounded env w' := by
  induction ss with
  | nil => intro w w' _ hb e; cases e; exact hb
  | cons s ss ih =>
    intro w w' hs hb e
    unfold commitSegs at e
    simp only [Res.bind_eq_ok] at e
    obtain ⟨h, -, h', -, w1, e1, e2⟩ := e
    obtain ⟨k1, k2⟩ := hs s (by simp)
    exact ih (fun t ht => hs t (by simp [ht])) (wsiloCommit_bounded (sl := { s.silo with hd := h' }) k1 k2 hb e1) e2

theorem segs_bounded {env : Env} {jh : Hdr} {ident : Option Bytes} (ss : List Seg) : ∀ {n before : Nat}, SegsDone env jh ident n before ss →
    ∀ s ∈ ss, s.silo.hdStart + s.silo.hdLen ≤ s.silo.hold.length ∧ s.silo.hold.length ≤ env.max := by
  induction ss with
  | nil => intro _ _ _ s hs; cases hs
  | cons t ss ih =>
    intro n before h s hs
    obtain ⟨-, h2, h3⟩ := h
    rcases List.mem_cons.1 hs with rfl | hs
    · obtain ⟨h0, gz, ⟨-, -, ⟨ih, info, res, -, -, i3, i4, i5⟩, -⟩, -⟩ := h2.state
      have := h2.max
      rw [i5] at this ⊢
      simp only [List.length_append] at this ⊢
      omega
    · exact ih h3 s hs

/-- C25: storing an object, in one segment or in many, leaves no silo longer than the configured size. -/
theorem C25_archive {σ : Type} {env : Env} {D : Deflater σ} (hz : Zlib D) (hmax : env.max < 2 ^ 63) {fuel : Nat} {w w' : World} {h : Hdr}
    {ident : Option Bytes} {cs : List Bytes} (hc : GoodInput env cs) {uri : Bytes} (hb : Bounded env w)
    (e : storeObj env D fuel w h ident cs = .ok (w', uri)) : Bounded env w' := by
  unfold storeObj segjobCommit at e
  simp only [Res.bind_eq_ok] at e
  obtain ⟨sj, e0, ⟨w1, sj1⟩, e1, ⟨w2, sj2⟩, e2, e3⟩ := e
  simp only at e2 e3
  obtain ⟨a1, -, -, -, -, a6⟩ := fed_inv hz hmax hc.1 hc.2.1 e0 e1 e2
  have hb2 : Bounded env w2 := by unfold Bounded; rw [a6.silos]; exact hb
  have hs := segs_bounded _ a1.segs
  unfold commitJob at e3
  rw [Res.bind_eq_ok] at e3
  obtain ⟨-, -, e3⟩ := e3
  cases hss : sj2.segs with
  | nil => rw [hss] at e3; cases e3
  | cons s ss =>
    rw [hss] at e3 hs
    simp only [Res.bind_eq_ok] at e3
    obtain ⟨s', f1, id, -, g, -, e4⟩ := e3
    have hs' : ∀ t ∈ s' :: ss, t.silo.hdStart + t.silo.hdLen ≤ t.silo.hold.length ∧ t.silo.hold.length ≤ env.max := by
      intro t ht
      rcases List.mem_cons.1 ht with rfl | ht
      · have k := hs s (by simp)
        split at f1
        · cases f1; exact k
        · unfold firstId at f1
          simp only [Res.bind_eq_ok, Res.pure_eq, Res.ok.injEq] at f1
          obtain ⟨_, -, _, -, rfl⟩ := f1
          exact k
      · exact hs t (by simp [ht])
    cases g with
    | job gj =>
      simp only [Res.pure_eq, Res.ok.injEq, Prod.mk.injEq] at e4
      obtain ⟨rfl, -⟩ := e4
      unfold Bounded
      rw [(destroy_same (s' :: ss) w2).1]
      exact hb2
    | error _ =>
      simp only [Res.bind_eq_ok, Res.pure_eq, Res.ok.injEq, Prod.mk.injEq] at e4
      obtain ⟨w3, e5, rfl, -⟩ := e4
      split at e5
      · exact wsiloCommit_bounded (hs' s' (by simp)).1 (hs' s' (by simp)).2 hb2 e5
      · exact commitSegs_bounded _ hs' hb2 e5

end Verif.Props
