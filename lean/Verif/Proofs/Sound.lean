/-
What GetJob_New finds in an archive that consists of stored objects.
-/
import Verif.Props.MainGet
import Verif.Props.Refs

namespace Verif.Props
open Verif Header Gzip Ident Index Wsilo Segjob Getjob Spec MainStore

theorem seghdrs_get {pfx fid : Bytes} : ∀ (l : List Item) (n k : Nat) (z : Item), SegHdrs pfx fid n l → l[k]? = some z →
    headerGet z.hdr b!"WARC-Segment-Number" = some (dec (n + k)) ∧ (n + k ≠ 1 → HasOrigin pfx z.hdr fid) ∧ FlSegmented z.entry.flags = true ∧
      FlWarcinfo z.entry.flags = false ∧ FlFirst z.entry.flags = decide (n + k = 1) ∧ FlLast z.entry.flags = decide (k + 1 = l.length)
  | [], _, _, _, _, h => by simp at h
  | x :: l, n, 0, z, h, hz => by
    simp only [List.getElem?_cons_zero, Option.some.injEq] at hz
    subst hz
    obtain ⟨a1, a2, -, a4, -⟩ := h
    have hf := flag_seg (typeFlag_cases x.hdr) (decide (n = 1)) l.isEmpty
    simp only [decide_eq_true_eq] at hf
    have hfl : x.entry.flags = typeFlag x.hdr ||| F_SEGMENTED ||| (if n = 1 then F_FIRSTSEG else 0) ||| (if l.isEmpty = true then F_LASTSEG else 0) := by
      rw [a4]; rfl
    rw [hfl]
    refine ⟨a1, fun h => (a2 h).1, hf.1, hf.2.1, hf.2.2.1, hf.2.2.2.trans ?_⟩
    cases l <;> simp
  | x :: l, n, k + 1, z, h, hz => by
    obtain ⟨-, -, -, -, -, h⟩ := h
    have := seghdrs_get l (n + 1) k z h (by simpa using hz)
    have e : n + 1 + k = n + (k + 1) := by omega
    rw [e] at this
    obtain ⟨b1, b2, b3, b4, b5, b6⟩ := this
    refine ⟨b1, b2, b3, b4, b5, b6.trans ?_⟩
    simp

theorem info_segno {env : Env} {y : Item} (h : InfoItem env y) : headerGet y.hdr b!"WARC-Segment-Number" = none := by
  obtain ⟨-, h1, -⟩ := h
  unfold infoHdr at h1
  simp only [Res.bind_eq_ok] at h1
  obtain ⟨h1, e1, h2, e2, h3, e3, h4, e4, h5, e5, h6, e6, e7⟩ := h1
  have s0 : SortedF (headerNew env.idSize).fields := (neat_new _).1
  have i1 := headerSet_inv s0 e1
  have i2 := headerSet_inv i1.2.2.1 e2
  have i3 := headerSet_inv i2.2.2.1 e3
  have i4 := headerSet_inv i3.2.2.1 e4
  have i5 := headerSet_inv i4.2.2.1 e5
  have i6 := headerSet_inv i5.2.2.1 e6
  have i7 := (identSet_inv e7).1
  rw [get_of_fields i7, i6.2.2.2.1, if_neg (by decide), i5.2.2.2.1, if_neg (by decide), i4.2.2.2.1, if_neg (by decide), i3.2.2.2.1,
    if_neg (by decide), i2.2.2.2.1, if_neg (by decide), i1.2.2.2.1, if_neg (by decide)]
  rfl

/-- The callback takes a record as a further segment only if its origin is the ID and its number the next one. -/
theorem verdict_next_inv {ps : Nat} {pfx : Bytes} {idSize : Nat} {w : World} {gj : GJ} {last s : GSeg} {x : Item} (hx : x.At ps pfx w.silos)
    (hl : gj.segs.getLast? = some last) (h : verdict ps pfx idSize w gj x.entry = .ok (.take s)) :
    ∃ im, originIs pfx idSize gj.id x.hdr = .ok true ∧ headerGetNumber x.hdr b!"WARC-Segment-Number" = .ok im ∧ 0 ≤ im ∧
      im.toNat % 2 ^ 32 = (last.segno + 1) % 2 ^ 32 ∧ GotItem w x (im.toNat % 2 ^ 32) s := by
  obtain ⟨f, pre, post, h1, h2, h3, h4⟩ := openRec_at hx
  unfold verdict at h
  rw [h4, Res.ok_bind] at h
  split at h
  · cases h
  · rw [hl] at h
    simp only [nextVerdict, Res.bind_eq_ok] at h
    obtain ⟨m, m1, h⟩ := h
    split at h
    · cases h
    · rename_i hm
      simp only [Res.bind_eq_ok, Res.check_eq_ok, exists_const, decide_eq_true_eq] at h
      obtain ⟨im, m2, m3, h⟩ := h
      split at h
      · cases h
      · rename_i hno
        cases h
        refine ⟨im, ?_, m2, m3, Decidable.not_not.1 hno, f, pre, post, h1, h2, h3, rfl⟩
        rw [m1]
        simpa using hm

/-- Record number `k` of a segmented object with this ID. -/
def Nth (objs : List (Item × List Item)) (id : Bytes) (k : Nat) (z : Item) : Prop :=
  ∃ o ∈ objs, SameId o.1.hdr.id id ∧ 0 < k ∧ (o.1 :: o.2)[k - 1]? = some z

theorem parts_len {env : Env} {g : Bool} {A P : List Item} {objs : List (Item × List Item)} {I : List Item} (hp : Parts env g A P objs I)
    {o : Item × List Item} (ho : o ∈ objs) : (o.1 :: o.2).length ≤ A.length := by
  rw [hp.perm.length_eq, List.length_append, List.length_append]
  obtain ⟨a, b, rfl⟩ := List.append_of_mem ho
  simp only [List.flatMap_append, List.flatMap_cons, List.length_append]
  omega

theorem nth_mem {env : Env} {g : Bool} {A P : List Item} {objs : List (Item × List Item)} {I : List Item} (hp : Parts env g A P objs I)
    {id : Bytes} {k : Nat} {z : Item} (h : Nth objs id k z) : z ∈ A ∧ k ≤ A.length := by
  obtain ⟨o, ho, -, hk, hz⟩ := h
  have hl := (List.getElem?_eq_some_iff.1 hz).1
  have := parts_len hp ho
  refine ⟨(hp.perm.mem_iff).2 (List.mem_append_right _ (List.mem_append_left _ (List.mem_flatMap.2 ⟨o, ho, List.mem_of_getElem? hz⟩))), by omega⟩

theorem parts_next {env : Env} {g : Bool} {A P : List Item} {objs : List (Item × List Item)} {I : List Item} (hp : Parts env g A P objs I)
    (hfew : A.length < 2 ^ 31) {id : Bytes} (hid : id.length = env.idSize) {z : Item} (hz : z ∈ A) {k : Nat} (hk : 0 < k) (hk2 : k < 2 ^ 31) {im : Int}
    (h1 : originIs env.pfx env.idSize id z.hdr = .ok true) (h2 : headerGetNumber z.hdr b!"WARC-Segment-Number" = .ok im) (h3 : 0 ≤ im)
    (h4 : im.toNat % 2 ^ 32 = (k + 1) % 2 ^ 32) : Nth objs id (k + 1) z ∧ im.toNat % 2 ^ 32 = k + 1 := by
  have p31 : (2 : Nat) ^ 31 = 2147483648 := by decide
  have p32 : (2 : Nat) ^ 32 = 4294967296 := by decide
  have p63 : (2 : Nat) ^ 63 = 9223372036854775808 := by decide
  rw [p31] at hfew hk2
  rw [p32] at h4 ⊢
  have hnone : headerGet z.hdr b!"WARC-Segment-Number" ≠ none := by
    intro hn
    rw [headerGetNumber, hn] at h2
    cases h2
    omega
  rcases List.mem_append.1 ((hp.perm.mem_iff).1 hz) with hm | hm
  · exact absurd (hp.plain z hm).1.1 hnone
  · rcases List.mem_append.1 hm with hm | hm
    · obtain ⟨o, ho, hzo⟩ := List.mem_flatMap.1 hm
      obtain ⟨-, hs, -, hol, -⟩ := hp.several o ho
      obtain ⟨j, hj⟩ := List.getElem?_of_mem hzo
      obtain ⟨b1, b2, -⟩ := seghdrs_get _ _ _ _ hs hj
      have hjl := (List.getElem?_eq_some_iff.1 hj).1
      have hle := parts_len hp ho
      rw [number_dec b1 (by omega)] at h2
      cases h2
      rw [Int.toNat_natCast] at h4 ⊢
      have hjk : j = k := by omega
      subst hjk
      rw [originIs_of (b2 (by omega)) hol hid, Res.ok.injEq, decide_eq_true_eq] at h1
      exact ⟨⟨o, ho, h1, by omega, hj⟩, by omega⟩
    · exact absurd (info_segno (hp.info z hm)) hnone

theorem gotItems_snoc {w : World} {n : Nat} {xs : List Item} {gs : List GSeg} (h : GotItems w n xs gs) {z : Item} {s : GSeg}
    (hz : GotItem w z (n + xs.length) s) : GotItems w n (xs ++ [z]) (gs ++ [s]) := by
  induction h with
  | nil => exact .cons hz .nil
  | cons h1 h2 ih =>
    rename_i n x g xs gs
    refine .cons h1 (ih ?_)
    simp only [List.length_cons] at hz
    rw [show n + 1 + xs.length = n + (xs.length + 1) from by omega]
    exact hz

theorem gotItems_last {w : World} {n : Nat} {xs : List Item} {gs : List GSeg} (h : GotItems w n xs gs) {z : Item} (hz : xs.getLast? = some z) :
    ∃ s, gs.getLast? = some s ∧ GotItem w z (n + xs.length - 1) s := by
  induction h with
  | nil => cases hz
  | cons h1 h2 ih =>
    rename_i n x g xs gs
    cases h2 with
    | nil =>
      simp only [List.getLast?_singleton, Option.some.injEq] at hz
      subst hz
      exact ⟨g, rfl, by simpa using h1⟩
    | cons h3 h4 =>
      rename_i x2 g2 xs gs
      obtain ⟨s, s1, s2⟩ := ih (by simpa using hz)
      refine ⟨s, by simpa using s1, ?_⟩
      simp only [List.length_cons] at s2 ⊢
      rw [show n + (xs.length + 1 + 1) - 1 = n + 1 + (xs.length + 1) - 1 from by omega]
      exact s2

theorem gotItems_length {w : World} {n : Nat} {xs : List Item} {gs : List GSeg} (h : GotItems w n xs gs) : gs.length = xs.length := by
  induction h with
  | nil => rfl
  | cons _ _ ih => simp [ih]

theorem gseg_flags {w : World} {x : Item} {n : Nat} {g : GSeg} (h : GotItem w x n g) : g.flag = x.entry.flags ∧ g.cont = x.entry.cont ∧ g.segno = n ∧ g.hdr = x.hdr := by
  obtain ⟨f, pre, post, -, -, -, rfl⟩ := h
  exact ⟨rfl, rfl, rfl, rfl⟩

/-- From the first segment on, every record found is the next one of some object with the ID. -/
theorem getLoop_sound {env : Env} {g : Bool} {w : World} {A P : List Item} {objs : List (Item × List Item)} {I : List Item} (hp : Parts env g A P objs I)
    (hA : ∀ x ∈ A, x.At env.ps env.pfx w.silos) (hfew : A.length < 2 ^ 31) {id : Bytes} (hid : id.length = env.idSize)
    (hfind : ∀ x ∈ A, Finds w.dir A x.entry.cont) (fuel : Nat) : ∀ (zs : List Item) (gj gj' : GJ) (z : Item),
    gj.id = id → GotItems w 1 zs gj.segs → (∀ i y, zs[i]? = some y → Nth objs id (i + 1) y) → zs.getLast? = some z →
    getLoop env.ps env.pfx env.idSize w fuel z.entry.cont gj = .ok (.job gj') →
    ∃ zs' y, GotItems w 1 zs' gj'.segs ∧ (∀ i y, zs'[i]? = some y → Nth objs id (i + 1) y) ∧ zs'.getLast? = some y ∧ FlLast y.entry.flags = true := by
  induction fuel with
  | zero => intro zs gj gj' z _ _ _ _ h; cases h
  | succ fuel ih =>
    intro zs gj gj' z hgid hgot hnth hlast h
    have hne : 0 < zs.length := by
      cases zs with
      | nil => cases hlast
      | cons => simp
    have hzi : zs[zs.length - 1]? = some z := by rw [← List.getLast?_eq_getElem?]; exact hlast
    have hz := nth_mem hp (hnth _ _ hzi)
    obtain ⟨l, l1, l2⟩ := gotItems_last hgot hlast
    obtain ⟨-, -, l3, -⟩ := gseg_flags l2
    rw [getLoop, Res.bind_eq_ok] at h
    obtain ⟨r, h1, h⟩ := h
    rw [Res.bind_eq_ok] at h
    obtain ⟨g1, h2, h⟩ := h
    obtain ⟨es, hes, hiter⟩ := hfind z hz.1
    obtain ⟨r', r1, r2, r3⟩ := hiter _ (getjobIter env.ps env.pfx env.idSize w) (.ok gj)
    rw [h1] at r1
    cases r1
    split at h
    · cases h
    · rename_i hpos
      obtain ⟨e, he, s, hv, hg⟩ := deliver_took es (by rw [← r2]; exact h2) (r3.1 (by omega))
      obtain ⟨-, y, m2, rfl⟩ := (hes e).1 he
      obtain ⟨im, v1, v2, v3, v4, v5⟩ := verdict_next_inv (hA y m2) l1 hv
      rw [l3, hgid] at *
      have hlen : zs.length ≤ A.length := by
        have := hz.2
        omega
      obtain ⟨n1, n2⟩ := parts_next hp hfew hid m2 (k := zs.length) hne (by omega) v1 v2 v3 (by rw [v4]; congr 1; omega)
      rw [n2] at v5
      have hgot' : GotItems w 1 (zs ++ [y]) g1.segs := by
        rw [hg]
        exact gotItems_snoc hgot (by rw [show 1 + zs.length = zs.length + 1 from by omega]; exact v5)
      have hnth' : ∀ i x, (zs ++ [y])[i]? = some x → Nth objs id (i + 1) x := by
        intro i x hx
        rcases Nat.lt_or_ge i zs.length with hi | hi
        · rw [List.getElem?_append_left hi] at hx
          exact hnth i x hx
        · rw [List.getElem?_append_right hi, List.getElem?_singleton] at hx
          split at hx
          · cases hx
            rw [show i = zs.length from by omega]
            exact n1
          · cases hx
      have hsl : g1.segs.getLast? = some s := by rw [hg]; simp
      obtain ⟨f1, f2, -, -⟩ := gseg_flags v5
      rw [hsl] at h
      simp only [Res.bind_eq_ok, Res.check_eq_ok, exists_const] at h
      obtain ⟨-, h⟩ := h
      have hseg : isSegmented s.flag = true := by
        obtain ⟨o, ho, -, -, hy⟩ := n1
        obtain ⟨-, hs, -⟩ := hp.several o ho
        have := (seghdrs_get _ _ _ _ hs hy).2.2.1
        rw [f1]
        exact (testBit_flag _ _).trans this
      rw [hseg] at h
      simp only [Bool.true_eq_false, if_false] at h
      split at h
      · rename_i hlf
        cases h
        refine ⟨zs ++ [y], y, hgot', hnth', by simp, ?_⟩
        rw [f1] at hlf
        exact (testBit_flag _ _).symm.trans hlf
      · rw [f2] at h
        exact ih (zs ++ [y]) g1 gj' y (by rw [hg]) hgot' hnth' (by simp) h

/-- Everything GetJob_New finds: an object in one record, or records that are each the next one of some segmented object with the ID. -/
theorem getjobNew_sound {env : Env} {g : Bool} {w : World} {A P : List Item} {objs : List (Item × List Item)} {I : List Item} (hp : Parts env g A P objs I)
    (hA : ∀ x ∈ A, x.At env.ps env.pfx w.silos) (hfew : A.length < 2 ^ 31) {id q : Bytes} (hq : idxValidId env.pfx env.idSize q = .ok id)
    (hfind0 : Finds w.dir A id) (hfind : ∀ x ∈ A, Finds w.dir A x.entry.cont) {fuel : Nat} {gj : GJ}
    (h : getjobNew env.ps env.pfx env.idSize fuel w q = .ok (.job gj)) :
    (∃ x ∈ P, SameId x.hdr.id id ∧ GotItems w 1 [x] gj.segs) ∨
    ∃ zs y, GotItems w 1 zs gj.segs ∧ (∀ i y, zs[i]? = some y → Nth objs id (i + 1) y) ∧ zs.getLast? = some y ∧ FlLast y.entry.flags = true := by
  have hid : id.length = env.idSize := ((C11_valid_id _ _ q id).1 hq).2.2
  unfold getjobNew at h
  rw [hq] at h
  simp only at h
  cases fuel with
  | zero => cases h
  | succ fuel =>
    rw [getLoop, Res.bind_eq_ok] at h
    obtain ⟨r, h1, h⟩ := h
    rw [Res.bind_eq_ok] at h
    obtain ⟨g1, h2, h⟩ := h
    obtain ⟨es, hes, hiter⟩ := hfind0
    obtain ⟨r', r1, r2, r3⟩ := hiter _ (getjobIter env.ps env.pfx env.idSize w) (.ok { id := id, err := .notFound, segs := [] })
    rw [h1] at r1
    cases r1
    split at h
    · cases h
    · rename_i hpos
      obtain ⟨e, he, s, hv, hg⟩ := deliver_took es (by rw [← r2]; exact h2) (r3.1 (by omega))
      obtain ⟨-, x, m2, rfl⟩ := (hes e).1 he
      obtain ⟨f, pre, post, z1, z2, z3, z4⟩ := verdict_first (idSize := env.idSize) (id := id) (er := .notFound) (hA x m2)
      rw [hv, Res.ok.injEq] at z4
      split at z4
      · cases z4
      · rename_i hsame
        split at z4
        · cases z4
        · rename_i hwi
          split at z4
          · cases z4
          · rename_i hseg
            cases z4
            have hgot : GotItems w 1 [x] g1.segs := by
              rw [hg]
              exact .cons ⟨f, pre, post, z1, z2, z3, rfl⟩ .nil
            have hsl : g1.segs.getLast? = some (gseg f.data x 1) := by rw [hg]; simp
            rw [hsl] at h
            simp only [Res.bind_eq_ok, Res.check_eq_ok, exists_const] at h
            obtain ⟨-, h⟩ := h
            have hf4 : isSegmented (gseg f.data x 1).flag = FlSegmented x.entry.flags := testBit_flag _ _
            have hf6 : isLastseg (gseg f.data x 1).flag = FlLast x.entry.flags := testBit_flag _ _
            rw [hf4, hf6] at h
            rcases List.mem_append.1 ((hp.perm.mem_iff).1 m2) with hm | hm
            · refine .inl ⟨x, hm, by simpa using hsame, ?_⟩
              have hns : FlSegmented x.entry.flags = false := by
                have hfl : x.entry.flags = typeFlag x.hdr := by rw [(hp.plain x hm).1.2.1]; rfl
                rw [hfl]
                exact (flag_plain (typeFlag_cases _)).1
              rw [hns] at h
              simp only [if_true, Res.bind_eq_ok, Res.check_eq_ok, exists_const] at h
              obtain ⟨-, h⟩ := h
              cases h
              exact hgot
            · rcases List.mem_append.1 hm with hm | hm
              · obtain ⟨o, ho, hxo⟩ := List.mem_flatMap.1 hm
                obtain ⟨-, hs, -, -, -⟩ := hp.several o ho
                obtain ⟨j, hj⟩ := List.getElem?_of_mem hxo
                obtain ⟨-, -, b3, -, b5, -⟩ := seghdrs_get _ _ _ _ hs hj
                have hj0 : j = 0 := by
                  have : FlFirst x.entry.flags = true := by
                    cases hf : FlFirst x.entry.flags with
                    | true => rfl
                    | false => exact absurd ⟨b3, hf⟩ hseg
                  rw [this] at b5
                  have := of_decide_eq_true b5.symm
                  omega
                subst hj0
                have hxo : x = o.1 := by simpa using hj.symm
                have hnth : ∀ i y, [x][i]? = some y → Nth objs id (i + 1) y := by
                  intro i y hy
                  rw [List.getElem?_singleton] at hy
                  split at hy
                  · cases hy
                    rename_i hi
                    subst hi
                    exact ⟨o, ho, by rw [← hxo]; simpa using hsame, by omega, hj⟩
                  · cases hy
                rw [b3] at h
                simp only [Bool.true_eq_false, if_false] at h
                split at h
                · rename_i hlf
                  cases h
                  exact .inr ⟨[x], x, hgot, hnth, rfl, hlf⟩
                · obtain ⟨zs, y, k1, k2, k3, k4⟩ := getLoop_sound hp hA hfew hid hfind fuel [x] g1 gj x (by rw [hg]) hgot hnth rfl h
                  exact .inr ⟨zs, y, k1, k2, k3, k4⟩
              · exfalso
                have : x.entry.flags = F_WARCINFO := by rw [(hp.info x hm).1]; rfl
                rw [this] at hwi
                exact hwi (by decide)

/-- No two segmented objects have the same ID, ignoring letter case. -/
def FirstsApart (A : List Item) : Prop :=
  A.Pairwise fun x y => FlFirst x.entry.flags = true → FlFirst y.entry.flags = true → ¬ SameId x.hdr.id y.hdr.id

theorem firsts_apart_perm {A B : List Item} (h : A.Perm B) (ha : FirstsApart A) : FirstsApart B :=
  (h.pairwise_iff fun h a b s => (h b a) s.symm).1 ha

theorem apart_objs {pfx : Bytes} (objs : List (Item × List Item)) (hs : ∀ o ∈ objs, SegHdrs pfx o.1.hdr.id 1 (o.1 :: o.2))
    (hf : FirstsApart (objs.flatMap (fun o => o.1 :: o.2))) : ∀ a ∈ objs, ∀ b ∈ objs, SameId a.1.hdr.id b.1.hdr.id → a = b := by
  induction objs with
  | nil => intro a ha; cases ha
  | cons o os ih =>
    unfold FirstsApart at hf
    rw [List.flatMap_cons, List.pairwise_append] at hf
    obtain ⟨-, h2, h3⟩ := hf
    have key : ∀ b ∈ os, ¬ SameId o.1.hdr.id b.1.hdr.id := fun b hb =>
      h3 o.1 (by simp) b.1 (List.mem_flatMap.2 ⟨b, hb, by simp⟩) (first_flag (hs o (by simp))) (first_flag (hs b (by simp [hb])))
    intro a ha b hb hab
    rcases List.mem_cons.1 ha with ha' | ha'
    · rcases List.mem_cons.1 hb with hb' | hb'
      · rw [ha', hb']
      · exact absurd (ha' ▸ hab) (key b hb')
    · rcases List.mem_cons.1 hb with hb' | hb'
      · exact absurd (hb' ▸ hab.symm) (key a ha')
      · exact ih (fun o ho => hs o (by simp [ho])) h2 a ha' b hb' hab

/-- If no two segmented objects have the same ID, GetJob_New finds one object, all of it. -/
theorem getjobNew_exact {env : Env} {g : Bool} {w : World} {A P : List Item} {objs : List (Item × List Item)} {I : List Item} (hp : Parts env g A P objs I)
    (hA : ∀ x ∈ A, x.At env.ps env.pfx w.silos) (hfew : A.length < 2 ^ 31) (hap : FirstsApart A) {id q : Bytes} (hq : idxValidId env.pfx env.idSize q = .ok id)
    (hfind0 : Finds w.dir A id) (hfind : ∀ x ∈ A, Finds w.dir A x.entry.cont) {fuel : Nat} {gj : GJ}
    (h : getjobNew env.ps env.pfx env.idSize fuel w q = .ok (.job gj)) :
    ∃ x ys, (x ∈ P ∧ ys = [] ∨ (x, ys) ∈ objs) ∧ SameId x.hdr.id id ∧ GotItems w 1 (x :: ys) gj.segs := by
  rcases getjobNew_sound hp hA hfew hq hfind0 hfind h with ⟨x, h1, h2, h3⟩ | ⟨zs, y, h1, h2, h3, h4⟩
  · exact ⟨x, [], .inl ⟨h1, rfl⟩, h2, h3⟩
  · have hap' : FirstsApart (objs.flatMap (fun o => o.1 :: o.2)) := by
      have := firsts_apart_perm hp.perm hap
      unfold FirstsApart at this
      rw [List.pairwise_append, List.pairwise_append] at this
      exact this.2.1.1
    have huniq := apart_objs objs (fun o ho => (hp.several o ho).2.1) hap'
    cases zs with
    | nil => cases h3
    | cons z zs =>
      obtain ⟨o, ho, hs, -, hz⟩ := h2 0 z rfl
      have hall : ∀ (i : Nat) (y : Item), (z :: zs)[i]? = some y → (o.1 :: o.2)[i]? = some y := by
        intro i y hy
        obtain ⟨o', ho', hs', -, hz'⟩ := h2 i y hy
        have : o' = o := huniq o' ho' o ho (hs'.trans hs.symm)
        subst this
        exact hz'
      have hlast : (z :: zs)[zs.length]? = some y := by
        have := List.getLast?_eq_getElem? (l := z :: zs)
        rw [h3] at this
        simpa using this.symm
      have hfl := (seghdrs_get _ _ _ _ (hp.several o ho).2.1 (hall _ _ hlast)).2.2.2.2.2
      rw [h4] at hfl
      have hlen := of_decide_eq_true hfl.symm
      have heq : z :: zs = o.1 :: o.2 := by
        apply List.ext_getElem?
        intro i
        rcases Nat.lt_or_ge i (z :: zs).length with hi | hi
        · rw [List.getElem?_eq_getElem hi]
          exact (hall i _ (List.getElem?_eq_getElem hi)).symm
        · rw [List.getElem?_eq_none hi, List.getElem?_eq_none (by simp at hi hlen ⊢; omega)]
      rw [heq] at h1
      exact ⟨o.1, o.2, .inr ho, hs, h1⟩

end Verif.Props
