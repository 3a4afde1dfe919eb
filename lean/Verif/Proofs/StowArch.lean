/-
Lemmas about Model/StowArch.lean: what the jobs do to the archive.
-/
import Verif.Model.StowArch
import Verif.Props.MainGet
import Verif.Props.Filter
import Verif.Props.StowData
import Verif.Props.AuditArch

namespace Verif.Props
open Verif Header Ident Index Wsilo Segjob Getjob Spec StowArch Filter
open _root_.Verif.MainStore (Opt Out mainStore WType Args)
open _root_.Verif.StowData (Cfg)
open _root_.Verif.Stow (missing)

/-! ### What the filter finds -/

theorem deliver_any (k : Bytes) (es : List Entry) : ∀ b : Bool,
    Spec.deliver (fun b e => (b || e.key == k, 0)) es b = (b || es.any (fun e => e.key == k), 0) := by
  induction es with
  | nil => intro b; simp [Spec.deliver]
  | cons e es ih => intro b; simp only [Spec.deliver, if_true, ih, List.any_cons, Bool.or_assoc]

theorem inserts_few {env : Env} {w : World} {ops : List IdxOp} {A : List Spec.Item} (ha : ArchInv env w ops A) : (inserts ops).length = A.length := by
  have := congrArg List.length ha.entries
  simpa using this

/-- There is a record whose index entry starts with the first 24 digits. -/
theorem knownOf_iff {env : Env} {w : World} {ops : List IdxOp} {A : List Spec.Item} (ha : ArchInv env w ops A) (hf : A.length < 2 ^ 31) (x : Bytes) :
    knownOf w x = true ↔ ∃ y ∈ A, y.entry.key = x.take 24 := by
  obtain ⟨d, es, b1, -, b3, b4⟩ := iter_history ops ha.valid (by rw [inserts_few ha]; exact hf)
  rw [ha.dir] at b1
  cases b1
  obtain ⟨r, r1, r2⟩ := b4 (fun b e => (b || e.key == x.take 24, 0)) false
  unfold knownOf
  rw [r1]
  simp only [r2, deliver_any, Bool.false_or, List.any_eq_true, beq_iff_eq]
  have hmem : ∀ e, e ∈ es ↔ ∃ y ∈ A, y.entry = e := by
    intro e
    rw [b3]
    have h1 : e ∈ (inserts ops).map Ins.entry ↔ e ∈ A.map (·.entry) := by rw [ha.entries]
    simpa only [List.mem_map] using h1
  constructor
  · rintro ⟨e, h1, h2⟩
    obtain ⟨y, h3, rfl⟩ := (hmem e).1 h1
    exact ⟨y, h3, h2⟩
  · rintro ⟨y, h1, h2⟩
    exact ⟨y.entry, (hmem _).2 ⟨y, h1, rfl⟩, h2⟩

theorem knownOf_ins {env : Env} {w : World} {ops : List IdxOp} {A : List Spec.Item} (ha : ArchInv env w ops A) (hf : A.length < 2 ^ 31) (x : Bytes) :
    ((inserts ops).any fun i => padKey 24 i.id == x.take 24) = knownOf w x := by
  rw [Bool.eq_iff_iff, knownOf_iff ha hf, List.any_eq_true]
  simp only [beq_iff_eq]
  constructor
  · rintro ⟨i, h1, h2⟩
    have : i.entry ∈ A.map (·.entry) := by rw [← ha.entries]; exact List.mem_map.2 ⟨i, h1, rfl⟩
    obtain ⟨y, h3, h4⟩ := List.mem_map.1 this
    exact ⟨y, h3, by rw [h4]; exact h2⟩
  · rintro ⟨y, h1, h2⟩
    have : y.entry ∈ (inserts ops).map Ins.entry := by rw [ha.entries]; exact List.mem_map.2 ⟨y, h1, rfl⟩
    obtain ⟨i, h3, h4⟩ := List.mem_map.1 this
    exact ⟨i, h3, by rw [← h2, ← h4]; rfl⟩

theorem knownOf_mono {env : Env} {w w' : World} {ops is : List IdxOp} {A X : List Spec.Item} (ha : ArchInv env w ops A) (hb : ArchInv env w' (ops ++ is) (A ++ X))
    (hf : (A ++ X).length < 2 ^ 31) {x : Bytes} (h : knownOf w x = true) : knownOf w' x = true := by
  rw [List.length_append] at hf
  obtain ⟨y, h1, h2⟩ := (knownOf_iff ha (by omega) x).1 h
  exact (knownOf_iff hb (by rw [List.length_append]; exact hf) x).2 ⟨y, List.mem_append_left _ h1, h2⟩

/-! ### The filter job -/

theorem jobLines_line (l : Bytes) (h : (10 : UInt8) ∉ l) : ∀ (acc rest : Bytes), jobLines acc (l ++ 10 :: rest) = (acc ++ l) :: jobLines [] rest := by
  induction l with
  | nil => intro acc rest; simp [jobLines]
  | cons c l ih =>
    intro acc rest
    simp only [List.mem_cons, not_or] at h
    rw [List.cons_append, jobLines, if_neg (fun e => h.1 e.symm), ih h.2]
    simp

theorem jobLines_text (ls : List Bytes) (h : ∀ l ∈ ls, (10 : UInt8) ∉ l) : jobLines [] (textOf ls) = ls := by
  unfold textOf
  induction ls with
  | nil => rfl
  | cons l ls ih =>
    have := jobLines_line l (h l (by simp)) [] ((ls.map (· ++ [10])).flatten)
    rw [List.map_cons, List.flatten_cons, List.append_assoc, List.singleton_append, this, ih (fun x hx => h x (by simp [hx]))]
    rfl

set_option maxRecDepth 10000 in
theorem hexDigit_bytes {c : UInt8} (h : isHex c = true) : c ≠ 0 ∧ c ≠ 10 ∧ toLower c ≠ 47 := by
  have : ∀ c : Fin 256, isHex (UInt8.ofNat c) = true → UInt8.ofNat c ≠ 0 ∧ UInt8.ofNat c ≠ 10 ∧ toLower (UInt8.ofNat c) ≠ 47 := by decide
  have := this ⟨c.toNat, c.toNat_lt⟩
  simpa using this (by simpa using h)

/-- A line of hex digits of the right length has an ID on it. -/
theorem idLine_hex {pfx : Bytes} {idSize : Nat} (hs : ∃ p, pfx = p ++ [47]) {l : Bytes} (hl : idSize ≤ l.length) (hx : ∀ c ∈ l, isHex c = true) :
    IdLine pfx idSize l (l.take idSize) := by
  refine ⟨by rw [List.length_take]; omega, fun c hc => hx c (List.mem_of_mem_take hc), [], l.drop idSize, by simp, .inr ⟨rfl, ?_⟩⟩
  intro hp
  obtain ⟨p, rfl⟩ := hs
  have : (47 : UInt8) ∈ l.map toLower := hp.subset (by simp; exact .inr (by decide))
  obtain ⟨c, h1, h2⟩ := List.mem_map.1 this
  exact (hexDigit_bytes (hx c h1)).2.2 h2

theorem report_missing (n : Nat) (K : Bytes → Bool) (ls : List Bytes) (h : ∀ l ∈ ls, l ≠ []) :
    ((ls.filter (· ≠ [])).map fun l => report false false (K (l.take n)) l).flatten = textOf (missing n K ls) := by
  unfold missing textOf
  induction ls with
  | nil => rfl
  | cons l ls ih =>
    have hl := h l (by simp)
    rw [List.filter_cons, if_pos (by simpa using hl), List.map_cons, List.flatten_cons, ih (fun x hx => h x (by simp [hx])), List.filter_cons]
    cases hk : K (l.take n) with
    | true => simp [report]
    | false => simp [report]

/-- The filter job prints exactly the lines whose ID has no entry in the index. -/
theorem filterJob_ok {σ : Type} {x : Ctx σ} (he : EnvOk x.env) (hq : ∀ l, (x.qs l).Perm l ∧ Filter.Sorted (x.qs l)) (hbuf : 66 ≤ x.buf)
    {w : World} {ops : List IdxOp} {A : List Spec.Item} (ha : ArchInv x.env w ops A) (hf : A.length < 2 ^ 31) {inp : List Bytes}
    (hi : ∀ l ∈ inp, x.env.idSize ≤ l.length ∧ l.length ≤ 64 ∧ ∀ c ∈ l, isHex c = true) :
    filterJob x w inp = .ok (missing x.env.idSize (knownOf w) inp) := by
  have h16 := he.idSize.1
  have hlines : ∀ l ∈ [inp].flatten, LineOk x.buf l ∧ (l ≠ [] → IdLine x.env.pfx x.env.idSize l (l.take x.env.idSize)) := by
    intro l hl
    simp only [List.flatten_cons, List.flatten_nil, List.append_nil] at hl
    obtain ⟨h1, h2, h3⟩ := hi l hl
    exact ⟨⟨fun h => (hexDigit_bytes (h3 _ h)).1 rfl, fun h => (hexDigit_bytes (h3 _ h)).2.1 rfl, by omega⟩, fun _ => idLine_hex he.slash h1 h3⟩
  have hne : ∀ l ∈ inp, l ≠ [] := by
    intro l hl e
    have := (hi l hl).1
    rw [e] at this
    simp at this
    omega
  have hm := C41_exact (ps := x.env.ps) hq ha.valid (by rw [inserts_few ha]; exact hf) ha.dir hlines false false
  simp only [knownOf_ins ha hf] at hm
  simp only [List.flatten_cons, List.flatten_nil, List.append_nil] at hm
  rw [report_missing _ _ _ hne] at hm
  unfold filterJob
  rw [show [jobText inp] = [inp].map textOf from rfl, hm]
  simp only [Res.ok_bind, Res.pure_eq]
  rw [jobLines_text]
  intro l hl h
  exact (hexDigit_bytes ((hi l (List.mem_filter.1 hl).1).2.2 _ h)).2.1 rfl

/-! ### The store jobs -/

/-- There is a record for `get` to start with: it has this ID, is not a warcinfo record, and not a later segment. -/
def Present (A : List Spec.Item) (id : Bytes) : Prop :=
  ∃ y ∈ A, SameId y.hdr.id id ∧ Matches id y.entry = true ∧ FlWarcinfo y.entry.flags = false ∧ (FlSegmented y.entry.flags = true → FlFirst y.entry.flags = true)

theorem present_mono {A X : List Spec.Item} {id : Bytes} (h : Present A id) : Present (A ++ X) id := by
  obtain ⟨y, h1, h2⟩ := h
  exact ⟨y, List.mem_append_left _ h1, h2⟩

/-- The ID of metadata, which depends on what it refers to. -/
def metaId (env : Env) (ref b : Bytes) : Bytes := (env.sha (b!"<" ++ fullRef env ref ++ b!">" ++ [10] ++ env.sha b ++ [10])).take env.idSize

theorem objectId_inv {env : Env} {h : Hdr} {payload id i : Bytes} (ho : ObjectId env h none payload id) (hi : identCreate env.sha env.idSize h (env.sha payload) = .ok i) : id = i := by
  unfold ObjectId identSet headerSetId at ho
  simp only [hi, Res.ok_bind, Res.check_bind_eq_ok, Res.pure_eq, Res.ok.injEq, Hdr.mk.injEq] at ho
  rw [← ho.2.2.1, identCreate_setId hi]

theorem means_store : ∀ {a : Args}, Means [] a → a = ⟨none, b!"application/octet-stream", none, none⟩ := by
  rintro ⟨wt, mt, r, i⟩ h
  obtain ⟨-, h2, h3, h4, h5⟩ := h
  cases wt with
  | some t => obtain ⟨x, hx, -⟩ := h4; cases hx
  | none =>
    cases r with
    | some r => cases h3
    | none =>
      cases i with
      | some i => cases h2
      | none => cases h5; rfl

theorem means_meta {ref : Bytes} : ∀ {a : Args}, Means (metaOpts ref) a → a = ⟨some .metadata, b!"application/json", some ref, none⟩ := by
  rintro ⟨wt, mt, r, i⟩ h
  obtain ⟨-, h2, h3, h4, h5⟩ := h
  cases wt with
  | none => cases h4
  | some t =>
    obtain ⟨x, hx, ht⟩ := h4
    cases hx
    cases t with
    | resource => exact absurd ht (by decide)
    | metadata =>
      cases r with
      | none => cases h3
      | some r =>
        cases h3
        cases i with
        | some i => cases h2
        | none => cases h5; rfl

/-- A store job that prints a line has stored its input, or it was there already. -/
theorem storeJob_ok {σ : Type} {x : Ctx σ} (hz : Zlib x.D) (he : EnvOk x.env) (hl : Listed x.env x.conf) {fuel : Nat} {w w' : World} {opts : List Opt}
    {pieces : List Bytes} {a : Args} (hopt : ∀ a', Means opts a' → a' = a) (hai : a.i = none) {id : Bytes}
    (hid : ∀ ref h, (wtype a = .resource → a.r = none ∧ a.i = none ∧ ref = none) → (wtype a = .metadata → ∃ r, a.r = some r ∧ ref = some (fullRef x.env r)) →
      Headed x.env a ref h → ∀ payload i, ObjectId x.env h none payload i → payload = pieces.flatten → i = id)
    {ops : List IdxOp} {A : List Spec.Item} (ha : ArchInv x.env w ops A) (hp : [] ∉ pieces) (hlen : pieces.flatten.length + x.env.max < 2 ^ 63) {uri : Bytes}
    (e : storeJob x fuel w opts pieces = .ok (w', uri)) :
    uri = x.env.pfx ++ id ∧ id.length = x.env.idSize ∧ Session x.env x.D x.conf w w' ∧ ∃ is X, ArchInv x.env w' (ops ++ is) (A ++ X) ∧
      ((A ++ X).length < 2 ^ 31 → (∀ F, w.dir.sorted = some F → SeekSafe F id) → Present (A ++ X) id) := by
  unfold storeJob at e
  simp only [Res.bind_eq_ok] at e
  obtain ⟨⟨w1, out⟩, e1, e2⟩ := e
  cases out with
  | refused r => cases e2
  | printed u =>
    simp only [Res.pure_eq, Res.ok.injEq, Prod.mk.injEq] at e2
    obtain ⟨rfl, rfl⟩ := e2
    obtain ⟨a', i, ref, h, hm, hii, hne, hgr, hh, ej, es⟩ := (C59_store he).1 e1
    cases hii
    cases hopt a' hm
    obtain ⟨hj, -⟩ := granted_good he hl hgr hh ej
    have hpc : ∀ c ∈ pieces, c ≠ [] := fun c hc h => hp (h ▸ hc)
    rw [hai] at es
    obtain ⟨id', u1, u2, u3, u4⟩ := store_adds hz he hj ⟨hne, hpc, hlen⟩ ha es
    have hid' : id' = id := hid ref h hgr.res (fun hw => by obtain ⟨r, r1, -, -, r2, -⟩ := hgr.md hw; exact ⟨r, r1, r2⟩) hh _ id' u3 rfl
    subst hid'
    obtain ⟨-, u6, u7⟩ := (C11_valid_id _ _ _ _).1 u2
    have hs : Session x.env x.D x.conf w w1 := .run (.refl w) (fun i hi => by cases hi; exact ⟨hpc, hlen⟩) e1
    refine ⟨u1, u7, hs, ?_⟩
    rcases u4 with ⟨⟨gj, k1⟩, k2, k3, -⟩ | ⟨-, is, X, y, ys, k1, -, k3, k4, -⟩
    · refine ⟨[], [], by rw [List.append_nil, List.append_nil]; exact archInv_same ha k3 k2, fun hf hsk => ?_⟩
      rw [List.append_nil] at hf ⊢
      have h16 := he.idSize.1
      have hb : idxValidId x.env.pfx x.env.idSize id' = .ok id' := by
        obtain ⟨p, hp⟩ := he.slash
        exact valid_bare _ _ _ (by rw [hp]; simp) u6 u7
      by_cases hA : A = []
      · subst hA
        exact absurd k1 (getjob_empty ha hf hb hsk (by omega) gj)
      · obtain ⟨y, y1, y2, y3, y4, y5, -⟩ := getjob_taken ha.there hb (arch_finds ha hA hf u6 (by omega) hsk) k1
        exact ⟨y, y1, y3, y2, y4, y5⟩
    · refine ⟨is, X, k1, fun _ _ => ?_⟩
      obtain ⟨m1, m2, m3, m4, m5⟩ := k3.1
      refine ⟨y, m1, m2, m3, m4, fun hsg => ?_⟩
      rcases m5 with ⟨-, n1, -⟩ | ⟨-, -, n1, -⟩
      · rw [n1] at hsg; cases hsg
      · exact n1

theorem storeJob_resource {σ : Type} {x : Ctx σ} (hz : Zlib x.D) (he : EnvOk x.env) (hl : Listed x.env x.conf) {fuel : Nat} {w w' : World}
    {pieces : List Bytes} {ops : List IdxOp} {A : List Spec.Item} (ha : ArchInv x.env w ops A) (hp : [] ∉ pieces)
    (hlen : pieces.flatten.length + x.env.max < 2 ^ 63) {uri : Bytes} (e : storeJob x fuel w [] pieces = .ok (w', uri)) :
    uri = x.env.pfx ++ (x.env.sha pieces.flatten).take x.env.idSize ∧ Session x.env x.D x.conf w w' ∧ ∃ is X, ArchInv x.env w' (ops ++ is) (A ++ X) ∧
      ((A ++ X).length < 2 ^ 31 → (∀ F, w.dir.sorted = some F → SeekSafe F ((x.env.sha pieces.flatten).take x.env.idSize)) →
        Present (A ++ X) ((x.env.sha pieces.flatten).take x.env.idSize)) := by
  obtain ⟨h1, -, h2⟩ := storeJob_ok (a := ⟨none, b!"application/octet-stream", none, none⟩) hz he hl (fun a' => means_store) rfl (id := (x.env.sha pieces.flatten).take x.env.idSize)
    (by
      intro ref h _ _ hh payload i ho hpay
      subst hpay
      refine objectId_inv ho (C49_by_digest _ _ _ _ b!"resource" ?_ (.inl rfl))
      rw [hh.get]
      rfl)
    ha hp hlen e
  exact ⟨h1, h2⟩

theorem storeJob_metadata {σ : Type} {x : Ctx σ} (hz : Zlib x.D) (he : EnvOk x.env) (hl : Listed x.env x.conf) {fuel : Nat} {w w' : World} {ref : Bytes}
    {pieces : List Bytes} {ops : List IdxOp} {A : List Spec.Item} (ha : ArchInv x.env w ops A) (hp : [] ∉ pieces)
    (hlen : pieces.flatten.length + x.env.max < 2 ^ 63) {uri : Bytes} (e : storeJob x fuel w (metaOpts ref) pieces = .ok (w', uri)) :
    uri = x.env.pfx ++ metaId x.env ref pieces.flatten ∧ Session x.env x.D x.conf w w' ∧ ∃ is X, ArchInv x.env w' (ops ++ is) (A ++ X) ∧
      ((A ++ X).length < 2 ^ 31 → (∀ F, w.dir.sorted = some F → SeekSafe F (metaId x.env ref pieces.flatten)) →
        Present (A ++ X) (metaId x.env ref pieces.flatten)) := by
  obtain ⟨h1, -, h2⟩ := storeJob_ok (a := ⟨some .metadata, b!"application/json", some ref, none⟩) hz he hl (fun a' => means_meta) rfl (id := metaId x.env ref pieces.flatten)
    (by
      intro r h _ hr hh payload i ho hpay
      subst hpay
      obtain ⟨r', h1, h2⟩ := hr rfl
      cases h1
      subst h2
      refine objectId_inv ho (C49_metadata _ _ _ _ (b!"<" ++ fullRef x.env ref ++ b!">") ?_ ?_)
      · rw [hh.get]; rfl
      · rw [hh.get]; rfl)
    ha hp hlen e
  exact ⟨h1, h2⟩

end Verif.Props
