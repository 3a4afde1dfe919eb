/-
Property C61: metadata in the archive refers to objects in the archive.
-/
import Verif.Props.MainGet
import Verif.Props.MainStoreExample

namespace Verif.Props
open Verif Header Gzip Ident Index Wsilo Segjob Getjob Spec MainStore

theorem infoHdr_type {env : Env} {y : Item} (h : InfoItem env y) : headerGet y.hdr b!"WARC-Type" = some b!"warcinfo" := by
  obtain ⟨-, h1, -⟩ := h
  unfold infoHdr at h1
  simp only [Res.bind_eq_ok] at h1
  obtain ⟨h1, e1, h2, e2, h3, e3, h4, e4, h5, e5, h6, e6, e7⟩ := h1
  have s0 : SortedF (headerNew env.idSize).fields := (neat_new _).1
  have i1 := headerSet_inv s0 e1
  have i2 := headerSet_inv i1.2.2.1 e2
  have i3 := headerSet_inv i2.2.2.1 e3
  have i4 := headerSet_inv i3.2.2.1 e4
  have i5 := headerSet_inv i4.2.2.1 e5
  have i6 := headerSet_inv i5.2.2.1 e6
  have i7 := (identSet_inv e7).1
  rw [get_of_fields i7, i6.2.2.2.1, if_neg (by decide), i5.2.2.2.1, if_neg (by decide), i4.2.2.2.1, if_neg (by decide), i3.2.2.2.1,
    if_pos (strcasecmp_refl _)]

theorem means_r {os : List Opt} {a : Args} (h : Means os a) {r : Bytes} (hr : a.r = some r) : Opt.r r ∈ os := by
  have h1 : r ∈ rArgs os := by rw [h.r, hr]; exact List.mem_singleton_self r
  unfold rArgs at h1
  obtain ⟨o, ho, h2⟩ := List.mem_filterMap.1 h1
  cases o with
  | r x =>
    simp only [Option.some.injEq] at h2
    rw [← h2]; exact ho
  | _ => cases h2

/-- What one store adds to an archive made of honest objects: records with the fields of the job's header, continuation records and warcinfo records. -/
theorem store_parts {σ : Type} {env : Env} {D : Deflater σ} (hz : Zlib D) (he : EnvOk env) {g : Bool} {fuel : Nat} {w w' : World} {h : Hdr} {ident : Option Bytes}
    {cs : List Bytes} {uri : Bytes} {ops : List IdxOp} {A P : List Item} {objs : List (Item × List Item)} {I : List Item} (h1 : ArchInv env w ops A)
    (h2 : Layout w.silos A) (h3 : Parts env g A P objs I) (hj : GoodJob env h)
    (ht : headerGet h b!"WARC-Type" = some b!"resource" ∨ headerGet h b!"WARC-Type" = some b!"metadata") (hc : GoodInput env cs)
    (hg : ident ≠ none → g = true ∧ headerGet h b!"WARC-Type" = some b!"metadata") (e : storeObj env D fuel w h ident cs = .ok (w', uri)) :
    ∃ is X P' objs' I', ArchInv env w' (ops ++ is) (A ++ X) ∧ Layout w'.silos (A ++ X) ∧ Parts env g (A ++ X) P' objs' I' ∧
      ∀ z ∈ X, (∀ m, Kept m → headerGet z.hdr m = headerGet h m) ∨ headerGet z.hdr b!"WARC-Type" = some b!"continuation" ∨
        headerGet z.hdr b!"WARC-Type" = some b!"warcinfo" := by
  obtain ⟨id, -, u2, u3, ⟨-, s1, s2, -⟩ | ⟨-, is2, X2, x, ys, a1, -, a3, a4, -, -, b1, ⟨I2, b2, b3⟩, b4, b5, b7⟩⟩ := store_adds hz he hj hc h1 e
  · exact ⟨[], [], P, objs, I, by simpa using archInv_same h1 s2 s1, by rw [s1]; simpa using h2, by simpa using h3, fun z hz => (by cases hz)⟩
  · have hty : Typed x.hdr := by
      unfold Typed
      rw [b4]
      rcases ht with ht | ht
      · exact ⟨_, ht, by decide⟩
      · exact ⟨_, ht, by decide⟩
    have hh : Honest env g x ys := ⟨_, _, ht, b7, by rw [a3.2.1, a4]; exact u3, hg⟩
    have hinfo : ∀ z ∈ I2, headerGet z.hdr b!"WARC-Type" = some b!"warcinfo" := fun z hz => infoHdr_type (b3 z hz)
    rcases b5 with ⟨rfl, b5⟩ | ⟨b5, b6⟩
    · refine ⟨is2, X2, x :: P, objs, I ++ I2, a1, lay_arch h1 b1 h2, ⟨perm_first h3.perm b2, ?_, h3.several, ?_⟩, ?_⟩
      · intro z hz
        rcases List.mem_cons.1 hz with rfl | hz
        · exact ⟨b5, hty, hh⟩
        · exact h3.plain z hz
      · intro z hz
        rcases List.mem_append.1 hz with hz | hz
        · exact h3.info z hz
        · exact b3 z hz
      · intro z hz
        rcases List.mem_append.1 ((b2.mem_iff).1 hz) with hz | hz
        · rw [List.mem_singleton] at hz
          subst hz
          exact .inl b7.kept
        · exact .inr (.inr (hinfo z hz))
    · refine ⟨is2, X2, P, (x, ys) :: objs, I ++ I2, a1, lay_arch h1 b1 h2, ⟨perm_second h3.perm b2, h3.plain, ?_, ?_⟩, ?_⟩
      · intro z hz
        rcases List.mem_cons.1 hz with rfl | hz
        · exact ⟨b5, b6, hty, by rw [a4]; exact ((C11_valid_id _ _ _ _).1 u2).2.2, hh⟩
        · exact h3.several z hz
      · intro z hz
        rcases List.mem_append.1 hz with hz | hz
        · exact h3.info z hz
        · exact b3 z hz
      · intro z hz
        rcases List.mem_append.1 ((b2.mem_iff).1 hz) with hz | hz
        · rcases List.mem_cons.1 hz with rfl | hz
          · exact .inl b7.kept
          · obtain ⟨-, -, -, -, -, b6⟩ := b6
            have key : ∀ (l : List Item) (n : Nat), SegHdrs env.pfx x.hdr.id n l → 1 < n → ∀ y ∈ l, headerGet y.hdr b!"WARC-Type" = some b!"continuation" := by
              intro l
              induction l with
              | nil => intro n _ _ y hy; cases hy
              | cons z l ih =>
                intro n hs hn y hy
                obtain ⟨-, a2, -, -, -, a6⟩ := hs
                rcases List.mem_cons.1 hy with rfl | hy
                · exact (a2 (by omega)).2
                · exact ih (n + 1) a6 (by omega) y hy
            exact .inr (.inl (key _ 2 b6 (by omega) z hz))
        · exact .inr (.inr (hinfo z hz))

/-- A history as above in which the index finds the reference given with each run. -/
inductive SafeSession {σ : Type} (env : Env) (D : Deflater σ) (cfg : List Config.Section) : World → World → Prop where
  | refl (w : World) : SafeSession env D cfg w w
  | run {w w1 w2 : World} {fuel : Nat} {opts : List Opt} {input : Option Input} {out : Out} : SafeSession env D cfg w w1 →
      (∀ i, input = some i → (∀ c ∈ i.pieces, c ≠ []) ∧ i.pieces.flatten.length + env.max < 2 ^ 63) →
      (∀ r b, Opt.r r ∈ opts → idxValidId env.pfx env.idSize r = .ok b → ∀ F, w1.dir.sorted = some F → SeekSafe F b) →
      mainStore env D fuel cfg w1 opts input = .ok (w2, out) → SafeSession env D cfg w w2
  | housekeep {w w1 : World} {n : Nat} {d : Dir} : SafeSession env D cfg w w1 → n % 32 = 0 → 0 < n → idxResort n w1.dir = .ok d →
      SafeSession env D cfg w { w1 with dir := d }
  | mksilo {w w1 w2 : World} {args : List Bytes} {out : Mksilo.Out} : SafeSession env D cfg w w1 → Mksilo.mainMksilo env w1 args = .ok (w2, out) →
      SafeSession env D cfg w w2
  | other {w w1 w2 : World} : SafeSession env D cfg w w1 → w2.dir = w1.dir → (∀ n, (w2.silos n).map (·.data) = (w1.silos n).map (·.data)) →
      SafeSession env D cfg w w2

/-- Every metadata record names, in `WARC-Refers-To`, the ID of an object of the archive, all of whose records are there. -/
def RefsOk (env : Env) (A : List Item) : Prop :=
  ∀ x ∈ A, headerGet x.hdr b!"WARC-Type" = some b!"metadata" →
    ∃ pre b, headerGet x.hdr b!"WARC-Refers-To" = some (b!"<" ++ (pre ++ b) ++ b!">") ∧ SameText pre env.pfx ∧
      ∃ y ys, y ∈ A ∧ (∀ z ∈ ys, z ∈ A) ∧ Honest env true y ys ∧ SameId y.hdr.id b

theorem refsOk_append {env : Env} {A X : List Item} (ha : RefsOk env A) (hx : ∀ x ∈ X, headerGet x.hdr b!"WARC-Type" = some b!"metadata" →
    ∃ pre b, headerGet x.hdr b!"WARC-Refers-To" = some (b!"<" ++ (pre ++ b) ++ b!">") ∧ SameText pre env.pfx ∧
      ∃ y ys, y ∈ A ∧ (∀ z ∈ ys, z ∈ A) ∧ Honest env true y ys ∧ SameId y.hdr.id b) : RefsOk env (A ++ X) := by
  intro x hm ht
  have : ∃ pre b, headerGet x.hdr b!"WARC-Refers-To" = some (b!"<" ++ (pre ++ b) ++ b!">") ∧ SameText pre env.pfx ∧
      ∃ y ys, y ∈ A ∧ (∀ z ∈ ys, z ∈ A) ∧ Honest env true y ys ∧ SameId y.hdr.id b := by
    rcases List.mem_append.1 hm with hm | hm
    · exact ha x hm ht
    · exact hx x hm ht
  obtain ⟨pre, b, h1, h2, y, ys, h3, h4, h5⟩ := this
  exact ⟨pre, b, h1, h2, y, ys, List.mem_append_left _ h3, fun z hz => List.mem_append_left _ (h4 z hz), h5⟩

theorem safe_refs {σ : Type} {env : Env} {D : Deflater σ} (hz : Zlib D) (he : EnvOk env) {cfg : List Config.Section} (hl : Listed env cfg)
    {w0 w : World} (hw0 : w0.dir = {}) (hs0 : ∀ n, w0.silos n = none) (h0 : SafeSession env D cfg w0 w) :
    ∃ ops A P objs I, ArchInv env w ops A ∧ Layout w.silos A ∧ Parts env true A P objs I ∧ (A.length < 2 ^ 31 → RefsOk env A) := by
  induction h0 with
  | refl =>
    refine ⟨[], [], [], [], [], ⟨by rw [hw0]; rfl, fun o ho => (by cases ho), rfl, fun x hx => (by cases hx), fun x hx => (by cases hx)⟩, ?_,
      ⟨.refl _, fun x hx => (by cases hx), fun x hx => (by cases hx), fun x hx => (by cases hx)⟩, fun _ x hx => (by cases hx)⟩
    intro n f hf
    rw [hs0] at hf
    cases hf
  | run _ hi hr e ih =>
    rename_i w1 w2 fuel opts input out _
    obtain ⟨ops, A, P, objs, I, h1, h2, h3, h4⟩ := ih
    cases out with
    | refused r => rw [C59_refused e]; exact ⟨ops, A, P, objs, I, h1, h2, h3, h4⟩
    | printed uri =>
      obtain ⟨a, i, ref, h, hm, rfl, hp, hg, hh, ej, e⟩ := (C59_store he).1 e
      obtain ⟨hj, ht⟩ := granted_good he hl hg hh ej
      have hty : headerGet h b!"WARC-Type" = some b!"resource" ∨ headerGet h b!"WARC-Type" = some b!"metadata" := by
        rw [ht]; cases wtype a
        · exact Or.inl rfl
        · exact Or.inr rfl
      have hgi : a.i ≠ none → true = true ∧ headerGet h b!"WARC-Type" = some b!"metadata" := by
        intro hn
        refine ⟨rfl, ?_⟩
        rw [ht]
        cases hw : wtype a with
        | resource => exact absurd (hg.res hw).2.1 hn
        | metadata => rfl
      obtain ⟨is, X, P', objs', I', k1, k2, k3, k4⟩ := store_parts hz he h1 h2 h3 hj hty ⟨hp, hi i rfl⟩ hgi e
      refine ⟨_, _, P', objs', I', k1, k2, k3, fun hfew => ?_⟩
      rw [List.length_append] at hfew
      refine refsOk_append (h4 (by omega)) ?_
      intro x hx hxt
      rcases k4 x hx with k4 | k4 | k4
      · have hmt : wtype a = .metadata := by
          have := k4 b!"WARC-Type" (by unfold Kept Free Other; decide)
          rw [hxt, ht] at this
          cases hw : wtype a with
          | resource => rw [hw] at this; exact absurd this (by decide)
          | metadata => rfl
        obtain ⟨r, r1, -, r3, r4, gj, r5⟩ := hg.md hmt
        obtain ⟨pre, b, q1, q2, q3, q4⟩ := fullRef_spec he r3
        have hvalid : idxValidId env.pfx env.idSize (fullRef env r) = .ok b :=
          (C11_valid_id _ _ _ _).2 ⟨.inl ⟨pre, q1, q2⟩, q3, q4⟩
        have hseek : ∀ F, w1.dir.sorted = some F → SeekSafe F b := by
          have hopt : Opt.r r ∈ opts := means_r hm r1
          obtain ⟨b', hb'⟩ := r3
          have : b' = b := by
            obtain ⟨s1, s2, s3⟩ := (C11_valid_id _ _ _ _).1 hb'
            unfold fullRef at q1
            rcases s1 with ⟨pre', s1, s4⟩ | ⟨-, s1⟩
            · have hl1 : pre'.length = env.pfx.length := by simpa using congrArg List.length s4
              have hl2 : pre.length = env.pfx.length := by simpa using congrArg List.length q2
              obtain ⟨p, hp⟩ := he.slash
              have hpos : 0 < env.pfx.length := by rw [hp]; simp
              rw [if_neg (by rw [s1, List.length_append]; omega), s1] at q1
              exact List.append_inj_right q1 (by omega)
            · subst s1
              have hl2 : pre.length = env.pfx.length := by simpa using congrArg List.length q2
              rw [if_pos s3] at q1
              exact List.append_inj_right q1 hl2.symm
          rw [this] at hb'
          exact hr r b hopt hb'
        have hne : A ≠ [] := by
          rintro rfl
          exact getjob_empty h1 (by omega) hvalid hseek (by have := he.idSize; omega) gj r5
        have hfind := arch_finds h1 hne (by omega) q3 (by have := he.idSize; omega) hseek
        obtain ⟨y, hy, hid, hwi, hseg, -⟩ := getjob_first h1.there hvalid hfind r5
        obtain ⟨ys, hys, hho⟩ := parts_first h3 hy hwi hseg
        refine ⟨pre, b, ?_, q2, y, ys, hy, hys, hho, hid⟩
        rw [k4 _ (by unfold Kept Free Other; decide), hh.get, ← q1]
        rw [r4]
        rfl
      · rw [k4] at hxt; exact absurd hxt (by decide)
      · rw [k4] at hxt; exact absurd hxt (by decide)
  | housekeep _ hn hp e ih =>
    rename_i w1 n d _
    obtain ⟨ops, A, P, objs, I, h1, h2, h3, h4⟩ := ih
    refine ⟨ops ++ [.housekeep n], A, P, objs, I, ⟨?_, ?_, ?_, h1.there, h1.text⟩, h2, h3, h4⟩
    · rw [runOps_append, h1.dir]
      simp only [Res.ok_bind, runOps, e]
    · intro o ho
      rcases List.mem_append.1 ho with h | h
      · exact h1.valid o h
      · rw [List.mem_singleton] at h
        rw [h]; exact ⟨hn, hp⟩
    · rw [inserts_append]
      simpa [inserts] using h1.entries
  | mksilo _ e ih =>
    obtain ⟨ops, A, P, objs, I, h1, h2, h3, h4⟩ := ih
    rcases mainMksilo_steps e with rfl | ⟨n, hn, e⟩
    · exact ⟨ops, A, P, objs, I, h1, h2, h3, h4⟩
    · rcases mksilo_adds he h1 hn e with ⟨-, rfl, -⟩ | ⟨-, -, -, -, is2, y, a1, a2, -, -, -, -, a3⟩
      · exact ⟨ops, A, P, objs, I, h1, h2, h3, h4⟩
      · refine ⟨_, _, P, objs, I ++ [y], a1, lay_arch h1 a3 h2, parts_info h3 a2, fun hfew => ?_⟩
        rw [List.length_append] at hfew
        refine refsOk_append (h4 (by omega)) ?_
        intro x hx hxt
        rw [List.mem_singleton] at hx
        rw [hx, infoHdr_type a2] at hxt
        exact absurd hxt (by decide)
  | other _ hd' hs' ih =>
    rename_i w1 w2 _
    obtain ⟨ops, A, P, objs, I, h1, h2, h3, h4⟩ := ih
    have hg : Grown w1.silos w2.silos := by
      intro n f hf
      have := hs' n
      rw [hf] at this
      cases h : w2.silos n with
      | none => rw [h] at this; cases this
      | some g =>
        rw [h] at this
        simp only [Option.map_some, Option.some.injEq] at this
        exact ⟨g, [], rfl, by simp [this]⟩
    exact ⟨ops, A, P, objs, I, ⟨by rw [hd']; exact h1.dir, h1.valid, h1.entries, fun x hx => at_grown hg (h1.there x hx), h1.text⟩, layout_data hs' h2, h3, h4⟩

/-- C61: in an archive made with `store`, `mksilo` and by housekeeping, and with fewer than 2^31 records: every metadata record refers to an object that is in the archive. -/
theorem C61_refs {σ : Type} {env : Env} {D : Deflater σ} (hz : Zlib D) (he : EnvOk env) {cfg : List Config.Section} (hl : Listed env cfg)
    {w0 w : World} (hw0 : w0.dir = {}) (hs0 : ∀ n, w0.silos n = none) (h0 : SafeSession env D cfg w0 w) :
    ∃ ops A, ArchInv env w ops A ∧ Layout w.silos A ∧ (A.length < 2 ^ 31 → RefsOk env A) := by
  obtain ⟨ops, A, P, objs, I, h1, h2, -, h4⟩ := safe_refs hz he hl hw0 hs0 h0
  exact ⟨ops, A, h1, h2, h4⟩

/-- An object and metadata for it: whether the index has been sorted, what `store` prints, and the reference in the header that `get` prints. -/
def refRuns : Res (Bool × Out × Out × Option Bytes) :=
  mainStore (Example.env 5000) Example.stored 10 mimeCfg emptyWorld [] (some ⟨[b!"hello", b!" world"], false⟩) >>= fun r1 =>
  mainStore (Example.env 5000) Example.stored 10 mimeCfg r1.1 [.t b!"metadata", .m b!"text/plain", .r b!"85114a0d85114a0d85114a0d"]
    (some ⟨[b!"title: x"], false⟩) >>= fun r2 =>
  mainGet (Example.env 5000) 10 (fun b => [b]) r2.1 ⟨true, false, false⟩ b!"db87bd4cdb87bd4cdb87bd4c" >>= fun g =>
  .ok (r1.1.dir.sorted.isNone, r1.2, r2.2, g.bind fun g => match headerParse b!"x/" g.hdr with
    | .ok h => headerGet h b!"WARC-Refers-To"
    | _ => none)

set_option maxRecDepth 1000000 in
theorem refRuns_ok : refRuns = .ok (true, .printed b!"x/85114a0d85114a0d85114a0d", .printed b!"x/db87bd4cdb87bd4cdb87bd4c",
    some b!"<x/85114a0d85114a0d85114a0d>") := by decide +kernel

/-- There is such a history, with metadata. -/
example : ∃ w1 w2, SafeSession (Example.env 5000) Example.stored mimeCfg emptyWorld w2 ∧
    mainStore (Example.env 5000) Example.stored 10 mimeCfg w1 [.t b!"metadata", .m b!"text/plain", .r b!"85114a0d85114a0d85114a0d"]
      (some ⟨[b!"title: x"], false⟩) = .ok (w2, .printed b!"x/db87bd4cdb87bd4cdb87bd4c") := by
  have h := refRuns_ok
  unfold refRuns at h
  simp only [Res.bind_eq_ok, Res.ok.injEq, Prod.mk.injEq] at h
  obtain ⟨⟨w1, o1⟩, e1, ⟨w2, o2⟩, e2, g, -, hs, -, rfl, -⟩ := h
  refine ⟨w1, w2, .run (.run (.refl _) ?_ ?_ e1) ?_ ?_ e2, e2⟩
  · rintro i hi
    cases hi
    exact ⟨by decide, by decide +kernel⟩
  · intro r b hr
    cases hr
  · rintro i hi
    cases hi
    exact ⟨by decide, by decide +kernel⟩
  · intro r b _ _ F hF
    simp only [hF] at hs
    cases hs

end Verif.Props
