/-
Property C60: `get` returns what `store` stored, and never anything else.
-/
import Verif.Props.MainStoreExample
import Verif.Props.GetHeaders

namespace Verif.Props
open Verif Header Gzip Ident Index Wsilo Segjob Getjob Spec Inflate MainStore

/-! ### What was stored can be got -/

theorem getIter_collect : getIter = Gzip.collect := rfl

/-- The digest in the first header is that of the whole contents. -/
theorem first_digest {env : Env} {jh : Hdr} {x : Item} {ys : List Item} (ht : Truthful env jh x ys) :
    eitherGet x.hdr b!"WARC-Payload-Digest" b!"WARC-Block-Digest" = .ok (b!"sha256:" ++ env.sha ((x :: ys).map (·.record.data)).flatten) := by
  unfold eitherGet
  by_cases h : ys = []
  · subst h
    rw [(ht.single rfl).1, (ht.told x (by simp)).1]
    simp
  · rw [ht.digest h]

theorem digest_parts (d : Bytes) : (b!"sha256:" ++ d).take 7 = b!"sha256:" ∧ (b!"sha256:" ++ d).drop 7 = d :=
  ⟨List.take_left (l₁ := b!"sha256:"), List.drop_left (l₁ := b!"sha256:")⟩

/-- The program's own check succeeds on what was stored. -/
theorem selfCheck_ok {env : Env} {jh : Hdr} {x : Item} {ys : List Item} (ht : Truthful env jh x ys) {z : Item} (hz : (x :: ys).getLast? = some z) :
    selfCheck env x.hdr z.hdr ((x :: ys).map (·.record.data)).flatten = .ok () := by
  have e2 : eitherGet z.hdr b!"WARC-Segment-Total-Length" b!"Content-Length" = .ok (dec ((x :: ys).map (·.record.data)).flatten.length) := by
    unfold eitherGet
    by_cases h : ys = []
    · subst h
      rw [List.getLast?_singleton, Option.some.injEq] at hz
      subst hz
      rw [(ht.single rfl).2, (ht.told x (by simp)).2]
      simp
    · rw [ht.total h z hz]
  unfold selfCheck
  rw [first_digest ht, Res.ok_bind, (digest_parts _).1, (digest_parts _).2]
  simp only [e2, decide_true, Res.check_true, Res.ok_bind, strncmpEq, beq_self_eq_true]

theorem mainGet_object {env : Env} (he : EnvOk env) {w : World} {A : List Item} {id q : Bytes} {x : Item} {ys : List Item} {fuel : Nat} {jh : Hdr}
    (hg : Gettable env.ps env.pfx env.idSize w A id x ys) (ht : Truthful env jh x ys) (hq : idxValidId env.pfx env.idSize q = .ok id) (hfuel : ys.length < fuel)
    (hm : ∀ y ∈ x :: ys, Segment y.record.bgz y.record.data) {cut : Bytes → List Bytes} (hcut : ∀ b, (cut b).flatten = b) :
    ∃ H, headerParse env.pfx (headerSerialize env.pfx H) = .ok H ∧ H.id = x.hdr.id ∧ Describes env H ((x :: ys).map (·.record.data)).flatten ∧
      (∀ m, Kept m → headerGet H m = headerGet jh m) ∧
      (∀ hdrOnly quiet, mainGet env fuel cut w ⟨hdrOnly, quiet, false⟩ q =
        .ok (some ⟨if quiet then [] else headerSerialize env.pfx H, if hdrOnly then [] else ((x :: ys).map (·.record.data)).flatten⟩)) ∧
      ((ys ≠ [] → ∀ y ∈ x :: ys, y.record.data.length < 2 ^ 32 ∧ y.record.bgz.length % 2 ^ 32 ≠ 0) →
        ∃ out, gunzip out = some ((x :: ys).map (·.record.data)).flatten ∧ ∀ hdrOnly quiet, mainGet env fuel cut w ⟨hdrOnly, quiet, true⟩ q =
          .ok (some ⟨if quiet then [] else headerSerialize env.pfx H, if hdrOnly then [] else out⟩)) := by
  obtain ⟨gj, g1, g2, g3, -⟩ := C33_get_partial hg hq hfuel
  obtain ⟨H, k1, k2, k3, k4, k5⟩ := headers_of he ht (hg.there x hg.object.1).2.1.parse g2
  refine ⟨H, k2, k3, k4, k5, ?_⟩
  obtain ⟨z, hz⟩ : ∃ z, (x :: ys).getLast? = some z := ⟨_, List.getLast?_eq_some_getLast (by simp)⟩
  have hf : gjHeader gj true = .ok x.hdr := by
    unfold gjHeader
    cases hs : gj.segs with
    | nil => rw [hs] at g2; cases g2
    | cons s ss =>
      rw [hs, List.map_cons, List.map_cons, List.cons.injEq] at g2
      simp [g2.1]
  have hl : gjHeader gj false = .ok z.hdr := by
    have h1 : (gj.segs.map (·.hdr)).getLast? = some z.hdr := by rw [g2, List.getLast?_map, hz]; rfl
    rw [List.getLast?_map, Option.map_eq_some_iff] at h1
    obtain ⟨s, h1, h2⟩ := h1
    unfold gjHeader
    simp [h1, h2]
  have ho : getObj env cut gj false = .ok ((x :: ys).map (·.record.data)).flatten := by
    unfold getObj
    rw [hf, Res.ok_bind, hl, Res.ok_bind, getIter_collect, g3 cut hcut, Res.ok_bind, if_neg (by simp), selfCheck_ok ht hz]
    rfl
  refine ⟨?_, ?_⟩
  · intro hdrOnly quiet
    unfold mainGet
    rw [g1, Res.ok_bind]
    simp only [ho, k1]
    cases hdrOnly <;> cases quiet <;> rfl
  · intro hlen
    obtain ⟨gj', p1, p2, p3⟩ := C33_get_gzip hg hq hfuel cut
    rw [g1] at p1
    cases p1
    obtain ⟨out, o1, o2⟩ : ∃ out, getjobIterate env.ps cut gj Gzip.collect [] true = .ok out ∧ gunzip out = some ((x :: ys).map (·.record.data)).flatten := by
      by_cases hy : ys = []
      · refine ⟨_, p2 hy, ?_⟩
        subst hy
        rw [segment_gunzip (hm x (by simp))]
        simp
      · exact p3 hy fun y h => ⟨hm y h, hlen hy y h⟩
    refine ⟨out, o2, ?_⟩
    have hoz : getObj env cut gj true = .ok out := by
      unfold getObj
      rw [hf, Res.ok_bind, hl, Res.ok_bind, getIter_collect, o1, Res.ok_bind, if_pos rfl]
      rfl
    intro hdrOnly quiet
    unfold mainGet
    rw [g1, Res.ok_bind]
    simp only [hoz, k1]
    cases hdrOnly <;> cases quiet <;> rfl

theorem stores_later {σ : Type} {env : Env} {D : Deflater σ} {g : Bool} {w w' : World} (h : Stores env D g w w') : Later env D w w' := by
  induction h with
  | refl => exact .refl _
  | store _ hj _ hc _ e ih => exact .store ih hj hc e
  | housekeep _ h1 h2 h3 ih => exact .housekeep ih h1 h2 h3
  | mksilo _ h1 h2 ih => exact .mksilo ih h1 h2
  | other _ h1 h2 ih => exact .other ih h1 h2

/-- C60: after an ID was printed for a new object, and whatever is done with `store` and by housekeeping later: unless records
clash, `get` with that ID, in any form, prints a header with the options given to `store` and the length and digest of the whole, and writes exactly the input;
with `-z` it writes a gzip file of it (segments of less than 4 GiB). -/
theorem C60_get_partial {σ : Type} {env : Env} {D : Deflater σ} (hz : Zlib D) (he : EnvOk env) {cfg : List Config.Section} (hl : Listed env cfg)
    {w0 w w1 w2 : World} (hw0 : w0.dir = {}) (h0 : Session env D cfg w0 w) {fuel : Nat} {opts : List Opt} {i : Input}
    (hi : (∀ c ∈ i.pieces, c ≠ []) ∧ i.pieces.flatten.length + env.max < 2 ^ 63) {uri : Bytes}
    (e : mainStore env D fuel cfg w opts (some i) = .ok (w1, .printed uri)) (h2 : Session env D cfg w1 w2)
    (hnew : ∀ gj, getjobNew env.ps env.pfx env.idSize fuel w uri ≠ .ok (.job gj)) :
    ∃ a ref id ops A x ys, Means opts a ∧ Granted env fuel cfg w a ref ∧ uri = env.pfx ++ id ∧ ArchInv env w2 ops A ∧ Holds env A id i.pieces.flatten x ys ∧
      (Clear env w2 A id x ys → ∀ q, idxValidId env.pfx env.idSize q = .ok id → ∀ fuel2, ys.length < fuel2 →
        ∀ cut : Bytes → List Bytes, (∀ b, (cut b).flatten = b) →
        ∃ H, headerParse env.pfx (headerSerialize env.pfx H) = .ok H ∧ H.id = id ∧ Describes env H i.pieces.flatten ∧
          headerGet H b!"Content-Type" = some a.mt ∧ headerGet H b!"WARC-Type" = some (wtype a).text ∧ headerGet H b!"WARC-Date" = some env.date ∧
          headerGet H b!"WARC-Refers-To" = ref.map (fun r => b!"<" ++ r ++ b!">") ∧
          (∀ hdrOnly quiet, mainGet env fuel2 cut w2 ⟨hdrOnly, quiet, false⟩ q =
            .ok (some ⟨if quiet then [] else headerSerialize env.pfx H, if hdrOnly then [] else i.pieces.flatten⟩)) ∧
          ((ys ≠ [] → ∀ y ∈ x :: ys, y.record.data.length < 2 ^ 32 ∧ y.record.bgz.length % 2 ^ 32 ≠ 0) →
            ∃ out, gunzip out = some i.pieces.flatten ∧ ∀ hdrOnly quiet, mainGet env fuel2 cut w2 ⟨hdrOnly, quiet, true⟩ q =
              .ok (some ⟨if quiet then [] else headerSerialize env.pfx H, if hdrOnly then [] else out⟩))) := by
  obtain ⟨a, i', ref, h, hm, hii, hp, hg, hh, ej, e⟩ := (C59_store he).1 e
  cases hii
  obtain ⟨hj, -⟩ := granted_good he hl hg hh ej
  have hc : GoodInput env i.pieces := ⟨hp, hi⟩
  have hlater : ∀ {u v : World}, Stores env D true u v → Later env D u v := fun hs => stores_later hs
  have hinv0 : ArchInv env w0 [] [] := ⟨by rw [hw0]; rfl, fun o ho => (by cases ho), rfl, fun x hx => (by cases hx), fun x hx => (by cases hx)⟩
  obtain ⟨is, X, ha, -⟩ := later_inv hz he (hlater (C59_history he hl h0)) hinv0
  obtain ⟨id, u1, u2, -, u4⟩ := store_adds hz he hj hc ha e
  obtain ⟨-, u6, u7⟩ := (C11_valid_id _ _ _ _).1 u2
  have hsame : getjobNew env.ps env.pfx env.idSize fuel w id = getjobNew env.ps env.pfx env.idSize fuel w uri := by
    have hb : idxValidId env.pfx env.idSize id = .ok id := by
      obtain ⟨p, hp⟩ := he.slash
      exact valid_bare _ _ _ (by rw [hp]; simp) u6 u7
    unfold getjobNew
    rw [hb, u2]
  rcases u4 with ⟨⟨gj, u4⟩, -⟩ | ⟨-, is2, X2, x, ys, a1, -, a3, a4, -, -, a7⟩
  · rw [hsame] at u4
    exact absurd u4 (hnew gj)
  · obtain ⟨is3, X3, b1, -⟩ := later_inv hz he (hlater (C59_history he hl h2)) a1
    have hho := holds_mono (B := [] ++ X ++ X2 ++ X3) (fun x hx => List.mem_append_left _ hx) a3
    refine ⟨a, ref, id, _, _, x, ys, hm, hg, u1, b1, hho, ?_⟩
    intro hcl q hq fuel2 hf cut hcut
    obtain ⟨H, k1, k2, k3, k4, k5, k6⟩ := mainGet_object he (gettable_of he b1 u6 u7 hho.1 hcl) a7.2.2.2.2 hq hf hho.2.2 hcut
    rw [hho.2.1] at k3 k5 k6
    refine ⟨H, k1, by rw [k2, a4], k3, ?_, ?_, ?_, ?_, k5, k6⟩
    · rw [k4 _ (by unfold Kept Free Other; decide), hh.get]; rfl
    · rw [k4 _ (by unfold Kept Free Other; decide), hh.get]; rfl
    · rw [k4 _ (by unfold Kept Free Other; decide), hh.get]; rfl
    · rw [k4 _ (by unfold Kept Free Other; decide), hh.get]; rfl

/-! ### What is got was stored -/

theorem idxScan_inv {σ : Type} {P : σ → Prop} {srt : Bool} {cl : Nat} {keyP : Bytes} {kp : Option Bytes} {f : σ → Index.Entry → σ × Int}
    (hf : ∀ s e, P s → P (f s e).1) (l : List Bytes) : ∀ {s : σ} {r : σ × Int}, P s → idxScan srt cl keyP kp f l s = .ok r → P r.1 := by
  induction l with
  | nil => intro s r hs h; cases h; exact hs
  | cons rec rest ih =>
    intro s r hs h
    rw [idxScan] at h
    split at h
    · cases h
    · simp only at h
      split at h
      · cases h; exact hs
      · split at h
        · exact ih hs h
        · split at h
          · exact ih hs h
          · split at h
            · rename_i e _
              split at h
              · exact ih (hf s e hs) h
              · cases h; exact hf s e hs
            · cases h
            · cases h

theorem idxFiles_inv {σ : Type} {P : σ → Prop} {cl : Nat} {keyP : Bytes} {kp : Option Bytes} {f : σ → Index.Entry → σ × Int}
    (hf : ∀ s e, P s → P (f s e).1) (l : List (Option Bytes × Bool)) : ∀ {i : Int} {s : σ} {r : σ × Int}, P s → idxFiles cl keyP kp f l i s = .ok r → P r.1 := by
  induction l with
  | nil => intro i s r hs h; cases h; exact hs
  | cons a rest ih =>
    intro i s r hs h
    obtain ⟨file, srt⟩ := a
    cases file with
    | none => exact ih hs h
    | some file =>
      have h' : ∃ pos, (do
          let __x ← idxScan srt cl keyP kp f (chunksOf 32 (file.drop pos)) s
          match __x with
            | (s', i) => if i ≠ 0 then pure (s', i) else idxFiles cl keyP kp f rest i s') = .ok r := by
        rw [idxFiles] at h
        cases srt
        · exact ⟨0, h⟩
        · rw [if_pos rfl, Res.bind_eq_ok] at h
          obtain ⟨pos, -, h⟩ := h
          exact ⟨pos, h⟩
      obtain ⟨pos, h⟩ := h'
      rw [Res.bind_eq_ok] at h
      obtain ⟨⟨s', i'⟩, h1, h⟩ := h
      have := idxScan_inv hf _ hs h1
      simp only at h
      split at h
      · cases h; exact this
      · exact ih this h

theorem idxIter_inv {σ : Type} {P : σ → Prop} {d : Dir} {kp : Option Bytes} {f : σ → Index.Entry → σ × Int} (hf : ∀ s e, P s → P (f s e).1)
    {s : σ} {r : σ × Int} (hs : P s) (h : idxIter d kp f s = .ok r) : P r.1 := by
  unfold idxIter at h
  simp only [Res.bind_eq_ok] at h
  obtain ⟨-, -, keyP, -, h⟩ := h
  exact idxFiles_inv hf _ hs h

/-- The state of a job that was `gj` before. -/
def Extends (gj : GJ) (r : Res GJ) : Prop := ∀ gj', r = .ok gj' → gj'.id = gj.id ∧ ∃ more, gj'.segs = gj.segs ++ more

theorem getjobIter_extends {ps : Nat} {pfx : Bytes} {idSize : Nat} {w : World} {gj : GJ} (r : Res GJ) (e : Index.Entry) (h : Extends gj r) :
    Extends gj (getjobIter ps pfx idSize w r e).1 := by
  cases r with
  | fail => exact h
  | ub => exact h
  | ok g =>
    obtain ⟨h1, more, h2⟩ := h g rfl
    rw [getjobIter]
    cases verdict ps pfx idSize w g e with
    | fail => intro gj' he; cases he
    | ub => intro gj' he; cases he
    | ok v =>
      cases v with
      | skip => intro gj' he; cases he; exact ⟨h1, more, h2⟩
      | error er => intro gj' he; cases he; exact ⟨h1, more, h2⟩
      | take s => intro gj' he; cases he; exact ⟨h1, more ++ [s], by simp [h2]⟩

theorem getLoop_extends {ps : Nat} {pfx : Bytes} {idSize : Nat} {w : World} (fuel : Nat) : ∀ {nid : Bytes} {gj gj' : GJ},
    getLoop ps pfx idSize w fuel nid gj = .ok (.job gj') → gj'.id = gj.id ∧ ∃ more, gj'.segs = gj.segs ++ more := by
  induction fuel with
  | zero => intro nid gj gj' h; cases h
  | succ fuel ih =>
    intro nid gj gj' h
    rw [getLoop, Res.bind_eq_ok] at h
    obtain ⟨r, h1, h⟩ := h
    rw [Res.bind_eq_ok] at h
    obtain ⟨g, h2, h⟩ := h
    obtain ⟨k1, more, k2⟩ := idxIter_inv (P := Extends gj) (fun s e => getjobIter_extends s e) (fun _ he => by cases he; exact ⟨rfl, [], by simp⟩) h1 g h2
    split at h
    · cases h
    · split at h
      · cases h
      · rw [Res.bind_eq_ok] at h
        obtain ⟨-, -, h⟩ := h
        split at h
        · rw [Res.bind_eq_ok] at h
          obtain ⟨-, -, h⟩ := h
          cases h
          exact ⟨k1, more, k2⟩
        · split at h
          · cases h
            exact ⟨k1, more, k2⟩
          · obtain ⟨j1, m2, j2⟩ := ih h
            exact ⟨j1.trans k1, more ++ m2, by rw [j2, k2, List.append_assoc]⟩

theorem deliver_took {ps : Nat} {pfx : Bytes} {idSize : Nat} {w : World} {gj gj' : GJ} (es : List Index.Entry)
    (h : (Spec.deliver (getjobIter ps pfx idSize w) es (.ok gj)).1 = .ok gj') (hp : 0 < (Spec.deliver (getjobIter ps pfx idSize w) es (.ok gj)).2) :
    ∃ e ∈ es, ∃ s, verdict ps pfx idSize w gj e = .ok (.take s) ∧ gj' = { gj with segs := gj.segs ++ [s] } := by
  induction es with
  | nil => simp [Spec.deliver] at hp
  | cons e es ih =>
    cases hv : verdict ps pfx idSize w gj e with
    | fail => simp [Spec.deliver, getjobIter, hv] at h
    | ub => simp [Spec.deliver, getjobIter, hv] at h
    | ok v =>
      cases v with
      | skip =>
        simp only [Spec.deliver, getjobIter, hv, if_true] at h hp
        obtain ⟨e', h1, s, h2, h3⟩ := ih h hp
        exact ⟨e', by simp [h1], s, h2, h3⟩
      | error er => simp [Spec.deliver, getjobIter, hv] at hp
      | take s =>
        simp only [Spec.deliver, getjobIter, hv] at h
        rw [if_neg (by decide)] at h
        cases h
        exact ⟨e, by simp, s, hv, rfl⟩

/-- Soundness of looking up an ID: the first segment of the job is a record of the archive with that ID, neither a warcinfo record nor a later segment. -/
theorem getjob_taken {ps : Nat} {pfx : Bytes} {idSize : Nat} {w : World} {A : List Item} {id q : Bytes} {fuel : Nat} {gj : GJ}
    (hA : ∀ x ∈ A, x.At ps pfx w.silos) (hq : idxValidId pfx idSize q = .ok id) (hfind : Finds w.dir A id)
    (h : getjobNew ps pfx idSize fuel w q = .ok (.job gj)) :
    ∃ x ∈ A, Matches id x.entry = true ∧ SameId x.hdr.id id ∧ FlWarcinfo x.entry.flags = false ∧ (FlSegmented x.entry.flags = true → FlFirst x.entry.flags = true) ∧
      ∃ s more, gj.segs = s :: more ∧ s.hdr = x.hdr := by
  unfold getjobNew at h
  rw [hq] at h
  simp only at h
  cases fuel with
  | zero => cases h
  | succ fuel =>
    have hext := h
    rw [getLoop, Res.bind_eq_ok] at h
    obtain ⟨r, h1, h⟩ := h
    rw [Res.bind_eq_ok] at h
    obtain ⟨g, h2, h⟩ := h
    obtain ⟨es, hes, hiter⟩ := hfind
    obtain ⟨r', r1, r2, r3⟩ := hiter _ (getjobIter ps pfx idSize w) (.ok { id := id, err := .notFound, segs := [] })
    rw [h1] at r1
    cases r1
    split at h
    · cases h
    · rename_i hpos
      obtain ⟨e, he, s, hv, hg⟩ := deliver_took es (by rw [← r2]; exact h2) (r3.1 (by omega))
      obtain ⟨m1, x, m2, rfl⟩ := (hes e).1 he
      obtain ⟨f, pre, post, -, -, -, z4⟩ := verdict_first (idSize := idSize) (id := id) (er := .notFound) (hA x m2)
      rw [hv, Res.ok.injEq] at z4
      split at z4
      · cases z4
      · rename_i hsame
        split at z4
        · cases z4
        · rename_i hwi
          split at z4
          · cases z4
          · rename_i hseg
            cases z4
            refine ⟨x, m2, m1, by simpa using hsame, by simpa using hwi, ?_, ?_⟩
            · intro hs
              cases hf : FlFirst x.entry.flags with
              | true => rfl
              | false => exact absurd ⟨hs, hf⟩ hseg
            · have key : ∃ more, gj.segs = g.segs ++ more := by
                split at h
                · cases h
                · rw [Res.bind_eq_ok] at h
                  obtain ⟨-, -, h⟩ := h
                  split at h
                  · rw [Res.bind_eq_ok] at h
                    obtain ⟨-, -, h⟩ := h
                    cases h
                    exact ⟨[], by simp⟩
                  · split at h
                    · cases h
                      exact ⟨[], by simp⟩
                    · exact (getLoop_extends _ h).2
              obtain ⟨more, key⟩ := key
              rw [hg] at key
              exact ⟨_, more, key, rfl⟩

theorem getjob_first {ps : Nat} {pfx : Bytes} {idSize : Nat} {w : World} {A : List Item} {id q : Bytes} {fuel : Nat} {gj : GJ}
    (hA : ∀ x ∈ A, x.At ps pfx w.silos) (hq : idxValidId pfx idSize q = .ok id) (hfind : Finds w.dir A id)
    (h : getjobNew ps pfx idSize fuel w q = .ok (.job gj)) :
    ∃ x ∈ A, SameId x.hdr.id id ∧ FlWarcinfo x.entry.flags = false ∧ (FlSegmented x.entry.flags = true → FlFirst x.entry.flags = true) ∧
      ∃ s more, gj.segs = s :: more ∧ s.hdr = x.hdr := by
  obtain ⟨x, h1, -, h2⟩ := getjob_taken hA hq hfind h
  exact ⟨x, h1, h2⟩

theorem getjob_empty {env : Env} {w : World} {ops : List IdxOp} (ha : ArchInv env w ops []) (hfew : ([] : List Item).length < 2 ^ 31) {q id : Bytes}
    (hq : idxValidId env.pfx env.idSize q = .ok id) (hs : ∀ F, w.dir.sorted = some F → SeekSafe F id) (h8 : 8 ≤ env.idSize) {fuel : Nat} (gj : GJ) :
    getjobNew env.ps env.pfx env.idSize fuel w q ≠ .ok (.job gj) := by
  intro h
  have hno : inserts ops = [] := by
    have := congrArg List.length ha.entries
    simpa using this
  obtain ⟨-, u6, u7⟩ := (C11_valid_id _ _ _ _).1 hq
  obtain ⟨d, h1, h2⟩ := C03_housekept_lookup_partial ops ha.valid (by rw [hno]; exact hfew) id u6 (by omega)
  rw [ha.dir] at h1
  cases h1
  obtain ⟨es, e1, e2⟩ := h2 hs
  have hes : es = [] := by
    cases es with
    | nil => rfl
    | cons e es =>
      obtain ⟨-, i, hi, -⟩ := (e1 e).1 (by simp)
      rw [hno] at hi
      cases hi
  subst hes
  unfold getjobNew at h
  rw [hq] at h
  simp only at h
  cases fuel with
  | zero => cases h
  | succ fuel =>
    obtain ⟨r, r1, r2, -⟩ := e2 _ (getjobIter env.ps env.pfx env.idSize w) (.ok { id := id, err := .notFound, segs := [] })
    rw [getLoop, r1, Res.ok_bind, r2] at h
    simp only [Spec.deliver, Res.ok_bind, List.getLast?_nil] at h
    split at h <;> cases h

/-- The first record of an object whose records are honest has the object's ID; those that follow are marked as such. -/
theorem parts_first {env : Env} {g : Bool} {A P : List Item} {objs : List (Item × List Item)} {I : List Item} (h : Parts env g A P objs I) {x : Item}
    (hx : x ∈ A) (h1 : FlWarcinfo x.entry.flags = false) (h2 : FlSegmented x.entry.flags = true → FlFirst x.entry.flags = true) :
    ∃ ys, (∀ y ∈ ys, y ∈ A) ∧ Honest env g x ys := by
  have hm := (h.perm.mem_iff).1 hx
  rcases List.mem_append.1 hm with hp | hm
  · exact ⟨[], fun y hy => (by cases hy), (h.plain x hp).2.2⟩
  · rcases List.mem_append.1 hm with ho | hi
    · obtain ⟨o, ho', hxo⟩ := List.mem_flatMap.1 ho
      obtain ⟨-, hs, -, -, hh⟩ := h.several o ho'
      rcases List.mem_cons.1 hxo with rfl | hxo
      · refine ⟨o.2, fun y hy => (h.perm.mem_iff).2 ?_, hh⟩
        exact List.mem_append_right _ (List.mem_append_left _ (List.mem_flatMap.2 ⟨o, ho', List.mem_cons_of_mem _ hy⟩))
      · exfalso
        have key : ∀ (l : List Item) (n : Nat), SegHdrs env.pfx o.1.hdr.id n l → 1 < n → ∀ y ∈ l, FlSegmented y.entry.flags = true ∧ FlFirst y.entry.flags = false := by
          intro l
          induction l with
          | nil => intro n _ _ y hy; cases hy
          | cons z l ih =>
            intro n hs hn y hy
            obtain ⟨-, -, -, a4, -, a6⟩ := hs
            rcases List.mem_cons.1 hy with rfl | hy
            · have hf := flag_seg (typeFlag_cases y.hdr) (decide (n = 1)) l.isEmpty
              simp only [decide_eq_true_eq] at hf
              have : y.entry.flags = typeFlag y.hdr ||| F_SEGMENTED ||| (if n = 1 then F_FIRSTSEG else 0) ||| (if l.isEmpty = true then F_LASTSEG else 0) := by
                rw [a4]; rfl
              rw [this, hf.1, hf.2.2.1]
              exact ⟨rfl, by simp; omega⟩
            · exact ih (n + 1) a6 (by omega) y hy
        obtain ⟨-, -, -, -, -, hs⟩ := hs
        obtain ⟨k1, k2⟩ := key _ 2 hs (by omega) x hxo
        rw [h2 k1] at k2
        cases k2
    · exfalso
      have : x.entry.flags = F_WARCINFO := by rw [(h.info x hi).1]; rfl
      rw [this] at h1
      revert h1
      decide

/-- C60: whatever `get` writes, in an archive made by `store` and housekeeping: some object with the ID asked for was stored, and what is written has the same
SHA256, as far as IDs go, as the contents of that object; if it is a resource, then the ID itself is the start of the SHA256 of what is written. -/
theorem C60_authentic {σ : Type} {env : Env} {D : Deflater σ} (hz : Zlib D) (he : EnvOk env) {cfg : List Config.Section} (hl : Listed env cfg)
    {w0 w : World} (hw0 : w0.dir = {}) (hs0 : ∀ n, w0.silos n = none) (h0 : Session env D cfg w0 w) :
    ∃ ops A, ArchInv env w ops A ∧ (A.length < 2 ^ 31 → ∀ q id, idxValidId env.pfx env.idSize q = .ok id →
      (∀ F, w.dir.sorted = some F → SeekSafe F id) → ∀ fuel cut quiet out, mainGet env fuel cut w ⟨false, quiet, false⟩ q = .ok (some out) →
        ∃ x ys, x ∈ A ∧ (∀ y ∈ ys, y ∈ A) ∧ Honest env true x ys ∧ SameId x.hdr.id id ∧
          (env.sha out.obj).take env.idSize = (env.sha ((x :: ys).map (·.record.data)).flatten).take env.idSize ∧
          (headerGet x.hdr b!"WARC-Type" = some b!"resource" → SameId ((env.sha out.obj).take env.idSize) id)) := by
  obtain ⟨ops, A, P, objs, I, ha, -, hp⟩ := stores_inv hz he (C59_history he hl h0) hw0 hs0
  refine ⟨ops, A, ha, ?_⟩
  intro hfew q id hq hseek fuel cut quiet out h
  obtain ⟨-, u6, u7⟩ := (C11_valid_id _ _ _ _).1 hq
  unfold mainGet at h
  rw [Res.bind_eq_ok] at h
  obtain ⟨g, hg, h⟩ := h
  cases g with
  | error er => cases h
  | job gj =>
    simp only [Res.bind_eq_ok, Res.pure_eq, Res.ok.injEq, Option.some.injEq, Bool.false_eq_true, if_false] at h
    obtain ⟨hd, -, obj, ho, rfl⟩ := h
    simp only
    have hne : A ≠ [] := by
      rintro rfl
      exact getjob_empty ha hfew hq hseek (by have := he.idSize; omega) gj hg
    have hfind := arch_finds ha hne hfew u6 (by have := he.idSize; omega) hseek
    obtain ⟨x, hx, hid, hwi, hseg, s, more, hs, hsx⟩ := getjob_first ha.there hq hfind hg
    obtain ⟨ys, hys, hh⟩ := parts_first hp hx hwi hseg
    have hsha : (env.sha obj).take env.idSize = (env.sha ((x :: ys).map (·.record.data)).flatten).take env.idSize := by
      obtain ⟨jh, ident, -, ht, -⟩ := hh
      unfold getObj at ho
      rw [show gjHeader gj true = .ok x.hdr by unfold gjHeader; rw [hs]; simp [hsx], Res.ok_bind, Res.bind_eq_ok] at ho
      obtain ⟨h9, -, ho⟩ := ho
      rw [Res.bind_eq_ok] at ho
      obtain ⟨d, -, ho⟩ := ho
      rw [if_neg (by simp), Res.bind_eq_ok] at ho
      obtain ⟨u, hc, ho⟩ := ho
      cases ho
      unfold selfCheck at hc
      rw [first_digest ht, Res.ok_bind, (digest_parts _).1, (digest_parts _).2] at hc
      simp only [Res.bind_eq_ok, Res.check_eq_ok, exists_const] at hc
      obtain ⟨-, hc, -⟩ := hc
      exact (eq_of_beq hc).symm
    refine ⟨x, ys, hx, hys, hh, hid, hsha, ?_⟩
    intro hty
    obtain ⟨jh, ident, -, ht, hoid, hgi⟩ := hh
    have hjt : headerGet jh b!"WARC-Type" = some b!"resource" := by
      rw [← ht.kept _ (by unfold Kept Free Other; decide)]; exact hty
    have hin : ident = none := by
      cases ident with
      | none => rfl
      | some i =>
        have := (hgi (by simp)).2
        rw [hjt] at this
        exact absurd this (by decide)
    subst hin
    rw [hsha]
    unfold ObjectId identSet at hoid
    simp only [Res.bind_eq_ok] at hoid
    obtain ⟨i, i1, i2⟩ := hoid
    rw [C49_by_digest _ _ _ _ _ hjt (.inl rfl)] at i1
    cases i1
    unfold headerSetId at i2
    simp only [Res.bind_eq_ok, Res.check_eq_ok, exists_const, Res.pure_eq, Res.ok.injEq] at i2
    obtain ⟨-, -, i3⟩ := i2
    have := congrArg Hdr.id i3
    simp only [List.take_take, Nat.min_self] at this
    rw [this]
    exact hid

end Verif.Props
