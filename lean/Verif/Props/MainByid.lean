/-
Property C66: `byid` and `dumpindex` list exactly the records whose IDs start as asked for.
-/
import Verif.Model.MainByid
import Verif.Proofs.Listing

namespace Verif.Props
open Verif Header Gzip Ident Index Wsilo Segjob Getjob Spec Rsilo Inflate MainByid

/-! ### What there is to know about any record of an archive -/

/-- The record has a hex ID of the right length under which it is in the index, and a type. -/
def Filed (env : Env) (x : Item) : Prop :=
  x.entry.key = padKey 24 x.hdr.id ∧ x.hdr.id.length = env.idSize ∧ (∀ c ∈ x.hdr.id, isHex c = true) ∧ ∃ t, headerGet x.hdr b!"WARC-Type" = some t

theorem seghdrs_filed {env : Env} (he : EnvOk env) {fid : Bytes} : ∀ (l : List Item) (n : Nat), SegHdrs env.pfx fid n l → 1 < n →
    (∀ y ∈ l, y.hdr.id = (env.sha y.record.data).take env.idSize) → ∀ y ∈ l, Filed env y
  | [], _, _, _, _, y, hy => by cases hy
  | x :: l, n, h, hn, hi, y, hy => by
    obtain ⟨-, a2, -, a4, a5, a6⟩ := h
    rcases List.mem_cons.1 hy with rfl | hy
    · refine ⟨by rw [a4]; rfl, ?_, a5, _, (a2 (by omega)).2⟩
      rw [hi y (by simp), List.length_take, (he.sha _).1]
      have := he.idSize.2
      omega
    · exact seghdrs_filed he l (n + 1) a6 (by omega) (fun y hy => hi y (by simp [hy])) y hy

theorem parts_filed {env : Env} (he : EnvOk env) {g : Bool} {A P : List Item} {objs : List (Item × List Item)} {I : List Item} (hp : Parts env g A P objs I) :
    ∀ x ∈ A, Filed env x := by
  intro x hx
  rw [hp.perm.mem_iff, List.mem_append, List.mem_append] at hx
  rcases hx with hx | hx | hx
  · obtain ⟨h1, ⟨t, h2, -⟩, jh, ident, -, -, h3, -⟩ := hp.plain x hx
    refine ⟨by rw [h1.2.1]; rfl, ?_, h1.2.2, t, h2⟩
    exact (identSet_inv h3).2
  · obtain ⟨o, ho, hx⟩ := List.mem_flatMap.1 hx
    obtain ⟨-, h2, ⟨t, h3, -⟩, h4, jh, ident, -, h6, -⟩ := hp.several o ho
    obtain ⟨-, -, -, a4, a5, a6⟩ := h2
    rcases List.mem_cons.1 hx with rfl | hx
    · exact ⟨by rw [a4]; rfl, h4, a5, t, h3⟩
    · exact seghdrs_filed he o.2 2 a6 (by omega) h6.ids x hx
  · have h1 := hp.info x hx
    obtain ⟨-, h2, h3⟩ := infoHdr_ok he h1.2.1
    exact ⟨by rw [h1.1]; rfl, h3, h2, _, infoHdr_type h1⟩

/-! ### Fragments of IDs -/

/-- The ID starts with the fragment, of which 24 digits count, ignoring case. -/
def Begins (k : Bytes) (x : Item) : Prop := (k.map toLower).take 24 <+: x.hdr.id.map toLower

instance (k : Bytes) (x : Item) : Decidable (Begins k x) := by unfold Begins; infer_instance

theorem begins_iff {env : Env} {x : Item} (h : Filed env x) {k : Bytes} (hk : k.length ≤ env.idSize) : Matches k x.entry = true ↔ Begins k x := by
  unfold Matches Begins
  rw [h.1, List.isPrefixOf_iff_prefix]
  have hl : ((k.map toLower).take 24).length ≤ 24 ∧ ((k.map toLower).take 24).length ≤ x.hdr.id.length := by
    rw [List.length_take, List.length_map, h.2.1]
    omega
  generalize (k.map toLower).take 24 = p at hl ⊢
  unfold padKey
  have h2 : p.length ≤ ((x.hdr.id.map toLower).take 24).length := by
    rw [List.length_take, List.length_map]
    omega
  constructor
  · intro hp
    have : p <+: (x.hdr.id.map toLower).take 24 := List.prefix_of_prefix_length_le hp (List.prefix_append _ _) h2
    exact this.trans (List.take_prefix _ _)
  · intro hp
    have : p <+: (x.hdr.id.map toLower).take 24 := List.prefix_of_prefix_length_le hp (List.take_prefix _ _) h2
    exact this.trans (List.prefix_append _ _)

/-- The argument `a` is the fragment `k`, as it is or with the prefix of the archive in front. -/
def FragOf (pfx a k : Bytes) : Prop := (∀ c ∈ k, isHex c = true) ∧ (a = k ∨ ∃ p, a = p ++ k ∧ p.map toLower = pfx.map toLower)

theorem toLower_slash {c : UInt8} (h : toLower c = 47) : c = 47 := by
  unfold toLower at h
  split at h
  · rename_i hc
    have h1 := congrArg UInt8.toNat h
    rw [UInt8.toNat_add] at h1
    simp only [UInt8.le_iff_toNat_le] at hc
    simp at h1 hc
    omega
  · exact h

theorem frag_of {env : Env} (he : EnvOk env) {a k : Bytes} (h : FragOf env.pfx a k) : byidFrag env.pfx a = k := by
  obtain ⟨hk, h⟩ := h
  unfold byidFrag strncasecmpEq
  rcases h with rfl | ⟨p, rfl, h⟩
  · rw [if_neg]
    intro hc
    have hc := eq_of_beq hc
    rw [List.take_length] at hc
    obtain ⟨q, hq⟩ := he.slash
    have : (47 : UInt8) ∈ env.pfx.map toLower := List.mem_map.2 ⟨47, by rw [hq]; simp, by decide⟩
    rw [← hc] at this
    obtain ⟨c, h1, h2⟩ := List.mem_map.1 this
    have h3 := hk c (List.mem_of_mem_take h1)
    exact (hex_ne h3).2.2.1 (toLower_slash h2)
  · have hl : p.length = env.pfx.length := by
      have := congrArg List.length h
      simpa using this
    rw [← hl, List.take_left, hl, List.take_length, if_pos (by rw [h]; simp), ← hl, List.drop_left]

/-! ### byid -/

/-- The line for a record. -/
def byidLine (x : Item) : Bytes := b!"id " ++ x.hdr.id ++ b!" wt " ++ (headerGet x.hdr b!"WARC-Type").getD [] ++ b!"\n"

theorem byid_deliver {env : Env} {w : World} : ∀ (L : List Item), (∀ x ∈ L, x.At env.ps env.pfx w.silos ∧ Filed env x) → ∀ s : Bytes × Nat,
    Spec.deliver (byidIter env.ps env.pfx w) (L.map (·.entry)) (.ok s) = (.ok (s.1 ++ L.flatMap byidLine, s.2 + L.length), 0)
  | [], _, s => by simp [Spec.deliver]
  | x :: L, h, s => by
    obtain ⟨h1, h2⟩ := h x (by simp)
    obtain ⟨f, pre, post, -, -, -, e⟩ := openRec_at h1
    obtain ⟨t, ht⟩ := h2.2.2.2
    have hr : byidRec env.ps env.pfx w x.entry = .ok (byidLine x) := by
      unfold byidRec byidLine
      rw [e, Res.ok_bind]
      simp only [ht, Option.getD_some]
    have hi : byidIter env.ps env.pfx w (.ok s) x.entry = (.ok (s.1 ++ byidLine x, s.2 + 1), 0) := by
      simp only [byidIter, hr]
    rw [List.map_cons, Spec.deliver, hi, if_pos rfl, byid_deliver L (fun x hx => h x (by simp [hx]))]
    simp only [List.flatMap_cons, List.length_cons, List.append_assoc]
    congr 3
    omega

/-- The lists of records for the arguments. -/
inductive Lists (env : Env) (d : Dir) (A : List Item) : List Bytes → List (List Item) → Prop
  | nil : Lists env d A [] []
  | cons {a k : Bytes} {as : List Bytes} {L : List Item} {Ls : List (List Item)} : FragOf env.pfx a k → k.length ≤ env.idSize → L.Perm (A.filter fun x => Begins k x) →
      Lists env d A as Ls → Lists env d A (a :: as) (L :: Ls)

/-- An argument that can be looked up. -/
def GoodArg (env : Env) (d : Dir) (a : Bytes) : Prop := ∃ k, FragOf env.pfx a k ∧ k.length ≤ env.idSize ∧ Seekable d k

theorem lookup_begins {env : Env} {w : World} {ops : List IdxOp} {A : List Item} (ha : ArchInv env w ops A) (hl : Layout w.silos A) (hfew : A.length < 2 ^ 31)
    (hA : ∀ x ∈ A, Filed env x) {k : Bytes} (hk : ∀ c ∈ k, isHex c = true) (hkl : k.length ≤ env.idSize) (hs : Seekable w.dir k) :
    ∃ L : List Item, L.Perm (A.filter fun x => Begins k x) ∧ ∀ (σ : Type) (f : σ → Entry → σ × Int) (s : σ), ∃ r, idxIter w.dir (some k) f s = .ok r ∧
      r.1 = (Spec.deliver f (L.map (·.entry)) s).1 := by
  obtain ⟨L, l1, l2⟩ := arch_lookup ha hl hfew (kp := some k) hk hs
  refine ⟨L, ?_, l2⟩
  have : (A.filter fun x => Matches ((some k).getD []) x.entry) = A.filter fun x => decide (Begins k x) := by
    apply List.filter_congr
    intro x hx
    rw [Bool.eq_iff_iff, decide_eq_true_eq]
    exact begins_iff (hA x hx) hkl
  rwa [this] at l1

theorem byid_args {env : Env} (he : EnvOk env) {w : World} {ops : List IdxOp} {A : List Item} (ha : ArchInv env w ops A) (hl : Layout w.silos A)
    (hfew : A.length < 2 ^ 31) (hA : ∀ x ∈ A, Filed env x) (ok : Bool) : ∀ (as : List Bytes), (∀ a ∈ as, GoodArg env w.dir a) → ∃ Ls, Lists env w.dir A as Ls ∧
      ∀ rest s, byidArgs env.ps env.pfx w ok (as ++ rest) s = byidArgs env.ps env.pfx w ok rest (s.1 ++ Ls.flatten.flatMap byidLine, s.2 + Ls.flatten.length)
  | [], _ => ⟨[], .nil, fun rest s => by simp⟩
  | a :: as, h => by
    obtain ⟨Ls, i1, i2⟩ := byid_args he ha hl hfew hA ok as (fun a ha => h a (by simp [ha]))
    obtain ⟨k, k1, k2, k3⟩ := h a (by simp)
    obtain ⟨L, l1, l2⟩ := lookup_begins ha hl hfew hA k1.1 k2 k3
    refine ⟨L :: Ls, .cons k1 k2 l1 i1, ?_⟩
    intro rest s
    have hf := frag_of he k1
    rw [List.cons_append, byidArgs, if_neg (by rw [hf]; simpa using k1.1), hf]
    obtain ⟨r, r1, r2⟩ := l2 _ (byidIter env.ps env.pfx w) (.ok s)
    rw [byid_deliver L (fun x hx => by
      have := (List.mem_filter.1 (l1.mem_iff.1 hx)).1
      exact ⟨ha.there x this, hA x this⟩)] at r2
    rw [r1, Res.ok_bind, r2, Res.ok_bind, i2]
    simp only [List.flatten_cons, List.flatMap_append, List.length_append, List.append_assoc, Nat.add_assoc]

/-- C66: `byid` prints, for each argument, exactly the records of the archive whose IDs start with it, each once, and its exit status is the number of lines (not
more than 255), or 0 with `-e`. -/
theorem C66_byid_partial {σ : Type} {env : Env} {D : Deflater σ} (hz : Zlib D) (he : EnvOk env) {g : Bool} {w0 w : World} (hw0 : w0.dir = {})
    (hs0 : ∀ n, w0.silos n = none) (h0 : Stores env D g w0 w) :
    ∃ ops A, ArchInv env w ops A ∧ (A.length < 2 ^ 31 → ∀ e args, (∀ a ∈ args, GoodArg env w.dir a) → ∃ Ls, Lists env w.dir A args Ls ∧
      mainByid env.ps env.pfx w e args = .ok ⟨Ls.flatten.flatMap byidLine, if e then 0 else min 255 Ls.flatten.length⟩ ∧
      ∀ a rest, (∃ c ∈ byidFrag env.pfx a, isHex c = false) → mainByid env.ps env.pfx w e (args ++ a :: rest) = .ok ⟨Ls.flatten.flatMap byidLine, 1⟩) := by
  obtain ⟨ops, A, P, objs, I, ha, hl, hp⟩ := stores_inv hz he h0 hw0 hs0
  refine ⟨ops, A, ha, ?_⟩
  intro hfew e args hargs
  obtain ⟨Ls, h1, h2⟩ := byid_args he ha hl hfew (parts_filed he hp) e args hargs
  refine ⟨Ls, h1, ?_, ?_⟩
  · have := h2 [] ([], 0)
    rw [List.append_nil] at this
    rw [mainByid, this, byidArgs]
    simp only [List.nil_append, Nat.zero_add]
    congr 2
    cases e
    · simp only [Bool.false_eq_true, if_false]
      split <;> omega
    · rfl
  · rintro a rest ⟨c, hc, hx⟩
    have hb : (byidFrag env.pfx a).all isHex = false := List.all_eq_false.2 ⟨c, hc, by rw [hx]; decide⟩
    rw [mainByid, h2, byidArgs, if_pos hb, List.nil_append]

/-! ### dumpindex -/

/-- The fields of a line of `dumpindex` in turn: what is to be printed, for any number. -/
def fixedHex : (k : Nat) → (n : Nat) → Bytes
  | 0, _ => []
  | k + 1, n => fixedHex k (n / 16) ++ [hexLc (n % 16)]

theorem fixedHex_zero : ∀ k, fixedHex k 0 = List.replicate k 48
  | 0 => rfl
  | k + 1 => by
    rw [fixedHex, Nat.zero_div, fixedHex_zero k, List.replicate_succ']
    rfl

theorem hexDigits_length : ∀ k n, (hexDigits k n).length ≤ k
  | 0, _ => by simp [hexDigits]
  | k + 1, n => by
    rw [hexDigits]
    split
    · simp
    · rw [List.length_append]
      have := hexDigits_length k (n / 16)
      simp
      omega

theorem padLeft_hex : ∀ k n, n < 16 ^ k → padLeft k 48 (hexDigits k n) = fixedHex k n
  | 0, _, _ => rfl
  | k + 1, n, h => by
    rw [hexDigits, fixedHex]
    split
    · rename_i hn
      rw [Nat.div_eq_of_lt hn, Nat.mod_eq_of_lt hn, fixedHex_zero]
      simp [padLeft]
    · have := padLeft_hex k (n / 16) (by rw [Nat.pow_succ] at h; omega)
      rw [← this]
      simp [padLeft]

theorem fixedHex_length : ∀ k n, (fixedHex k n).length = k
  | 0, _ => rfl
  | k + 1, n => by rw [fixedHex, List.length_append, fixedHex_length k]; rfl

theorem fixedHex_inj : ∀ k m n, m < 16 ^ k → n < 16 ^ k → fixedHex k m = fixedHex k n → m = n
  | 0, m, n, h, h', _ => by simp at h h'; omega
  | k + 1, m, n, h, h', e => by
    rw [fixedHex, fixedHex] at e
    obtain ⟨e1, e2⟩ := List.append_inj e (by rw [fixedHex_length, fixedHex_length])
    rw [Nat.pow_succ] at h h'
    have := fixedHex_inj k (m / 16) (n / 16) (by omega) (by omega) e1
    have := hexLc_inj (by omega) (by omega) (List.cons.inj e2).1
    omega

theorem dec_no_blank (n : Nat) : ∀ c ∈ dec n, c ≠ 32 := by
  intro c hc h
  have := dec_digits n c hc
  rw [h] at this
  revert this
  decide

theorem drop_pad (n a : Nat) (r : Bytes) : (padLeft n 32 (dec a) ++ 32 :: r).dropWhile (· == 32) = dec a ++ 32 :: r := by
  unfold padLeft
  rw [List.append_assoc, List.dropWhile_append_of_pos (by simp)]
  obtain ⟨c, l, e⟩ := List.exists_cons_of_ne_nil (dec_ne_nil a)
  have := dec_no_blank a c (by rw [e]; simp)
  rw [e, List.cons_append, List.dropWhile_cons_of_neg (by simpa using this)]

theorem pad_inj {n a b : Nat} {r r' : Bytes} (h : padLeft n 32 (dec a) ++ 32 :: r = padLeft n 32 (dec b) ++ 32 :: r') : a = b ∧ r = r' := by
  have h1 := congrArg (List.dropWhile (· == 32)) h
  rw [drop_pad, drop_pad] at h1
  have h2 := congrArg (List.takeWhile (· != 32)) h1
  rw [List.takeWhile_append_of_pos (by simpa using dec_no_blank a), List.takeWhile_append_of_pos (by simpa using dec_no_blank b), List.takeWhile_cons_of_neg (by simp),
    List.takeWhile_cons_of_neg (by simp), List.append_nil, List.append_nil] at h2
  refine ⟨dec_inj h2, ?_⟩
  rw [h2] at h1
  exact (List.cons.inj (List.append_cancel_left h1)).2

/-- C66: a line of `dumpindex` tells everything that is in the entry. -/
theorem C66_line {e e' : Entry} (hk : e.key.length = e'.key.length) (hf : e.flags < 2 ^ 32) (hf' : e'.flags < 2 ^ 32) (h : dumpLine e = dumpLine e') : e = e' := by
  have p32 : (2 : Nat) ^ 32 = 16 ^ 8 := by decide
  rw [p32] at hf hf'
  unfold dumpLine at h
  rw [padLeft_hex 8 _ hf, padLeft_hex 8 _ hf'] at h
  simp only [List.append_assoc] at h
  obtain ⟨k1, h⟩ := List.append_inj h hk
  have h := List.append_cancel_left h
  obtain ⟨k2, h⟩ := List.append_inj h (by rw [fixedHex_length, fixedHex_length])
  have h := List.append_cancel_left h
  simp only [List.singleton_append] at h
  obtain ⟨k3, h⟩ := pad_inj h
  obtain ⟨k4, h⟩ := pad_inj h
  have k5 := List.append_cancel_right h
  replace k2 := fixedHex_inj 8 _ _ hf hf' k2
  cases e; cases e'
  simp only at k1 k2 k3 k4 k5
  subst k1 k2 k3 k4 k5
  rfl

theorem dump_deliver (u : Nat) : ∀ (L : List Entry) (s : Bytes), Spec.deliver (dumpIter u) L s = (s ++ (L.filter fun e => u = 0 ∨ e.flags = u).flatMap dumpLine, 0)
  | [], s => by simp [Spec.deliver]
  | e :: L, s => by
    by_cases h : u = 0 ∨ e.flags = u
    · have : dumpIter u s e = (s ++ dumpLine e, 0) := by rw [dumpIter, if_neg (by omega)]
      rw [Spec.deliver, this, if_pos rfl, dump_deliver u L, List.filter_cons_of_pos (by simpa using h), List.flatMap_cons, List.append_assoc]
    · have : dumpIter u s e = (s, 0) := by rw [dumpIter, if_pos (by omega)]
      rw [Spec.deliver, this, if_pos rfl, dump_deliver u L, List.filter_cons_of_neg (by simpa using h)]

/-- A record is wanted: no type was given, or its flags are exactly those of the type. -/
def Wanted (u : Nat) (x : Item) : Prop := u = 0 ∨ x.entry.flags = u

instance (u : Nat) (x : Item) : Decidable (Wanted u x) := by unfold Wanted; infer_instance

theorem dump_args {env : Env} {w : World} {ops : List IdxOp} {A : List Item} (ha : ArchInv env w ops A) (hl : Layout w.silos A) (hfew : A.length < 2 ^ 31)
    (hA : ∀ x ∈ A, Filed env x) (u : Nat) : ∀ (as : List Bytes), (∀ a ∈ as, (∀ c ∈ a, isHex c = true) ∧ a.length ≤ env.idSize ∧ Seekable w.dir a) →
    ∃ Ls, Lists env w.dir A as Ls ∧ ∀ s, dumpArgs w.dir u as s = .ok (s ++ (Ls.flatten.filter fun x => Wanted u x).flatMap fun x => dumpLine x.entry)
  | [], _ => ⟨[], .nil, fun s => by simp [dumpArgs]⟩
  | a :: as, h => by
    obtain ⟨Ls, i1, i2⟩ := dump_args ha hl hfew hA u as (fun a ha => h a (by simp [ha]))
    obtain ⟨k1, k2, k3⟩ := h a (by simp)
    obtain ⟨L, l1, l2⟩ := lookup_begins ha hl hfew hA k1 k2 k3
    refine ⟨L :: Ls, .cons ⟨k1, .inl rfl⟩ k2 l1 i1, ?_⟩
    intro s
    obtain ⟨r, r1, r2⟩ := l2 _ (dumpIter u) s
    rw [dumpArgs, r1, Res.ok_bind, i2, r2, dump_deliver, List.filter_map, List.flatMap_map, List.flatten_cons, List.filter_append, List.flatMap_append, List.append_assoc]
    rfl

theorem seekable_nil (d : Dir) : Seekable d [] := by
  intro F _
  have : idKey [] / 2 ^ (64 - tblBits F) = 0 := by rw [show idKey [] = 0 by decide, Nat.zero_div]
  exact ⟨.inl this, .inl this⟩

/-- C66: without arguments `dumpindex` prints every entry of the index once; with `-t`, only those whose flags are exactly the flag of the type. -/
theorem C66_dump {σ : Type} {env : Env} {D : Deflater σ} (hz : Zlib D) (he : EnvOk env) {g : Bool} {w0 w : World} (hw0 : w0.dir = {})
    (hs0 : ∀ n, w0.silos n = none) (h0 : Stores env D g w0 w) :
    ∃ ops A, ArchInv env w ops A ∧ (A.length < 2 ^ 31 → ∃ L : List Item, L.Perm A ∧
      ∀ u, mainDumpindex w.dir u [] = .ok ((L.filter fun x => Wanted u x).flatMap fun x => dumpLine x.entry)) := by
  obtain ⟨ops, A, P, objs, I, ha, hl, hp⟩ := stores_inv hz he h0 hw0 hs0
  refine ⟨ops, A, ha, ?_⟩
  intro hfew
  obtain ⟨L, l1, l2⟩ := arch_lookup ha hl hfew (kp := none) (by simp) (seekable_nil _)
  refine ⟨L, ?_, ?_⟩
  · rw [List.filter_eq_self.2] at l1
    · exact l1
    · intro x _
      simp [Matches]
  · intro u
    obtain ⟨r, r1, r2⟩ := l2 _ (dumpIter u) []
    rw [mainDumpindex, if_pos rfl, r1, Res.ok_bind, r2, dump_deliver, List.filter_map, List.flatMap_map, List.nil_append]
    rfl

/-- C66: with arguments, those of the records whose IDs start so. -/
theorem C66_dump_partial {σ : Type} {env : Env} {D : Deflater σ} (hz : Zlib D) (he : EnvOk env) {g : Bool} {w0 w : World} (hw0 : w0.dir = {})
    (hs0 : ∀ n, w0.silos n = none) (h0 : Stores env D g w0 w) :
    ∃ ops A, ArchInv env w ops A ∧ (A.length < 2 ^ 31 → ∀ u args, args ≠ [] →
      (∀ a ∈ args, (∀ c ∈ a, isHex c = true) ∧ a.length ≤ env.idSize ∧ Seekable w.dir a) → ∃ Ls, Lists env w.dir A args Ls ∧
        mainDumpindex w.dir u args = .ok ((Ls.flatten.filter fun x => Wanted u x).flatMap fun x => dumpLine x.entry)) := by
  obtain ⟨ops, A, P, objs, I, ha, hl, hp⟩ := stores_inv hz he h0 hw0 hs0
  refine ⟨ops, A, ha, ?_⟩
  intro hfew u args hne hargs
  obtain ⟨Ls, h1, h2⟩ := dump_args ha hl hfew (parts_filed he hp) u args hargs
  exact ⟨Ls, h1, by rw [mainDumpindex, if_neg hne, h2, List.nil_append]⟩

/-- Without a sorted file every fragment can be looked up; the prefix is dropped whatever its case. -/
example : GoodArg (Example.env 5000) {} b!"X/85" :=
  ⟨b!"85", ⟨by decide, .inr ⟨b!"X/", rfl, by decide⟩⟩, by decide, fun F h => by cases h⟩

/-- Entries as `C66_line` wants them. -/
example : dumpLine ⟨b!"85114a0d85114a0d85114a0d", 52, 3, 1000, b!"bbbbbbbb"⟩ = b!"85114a0d85114a0d85114a0d 0x00000034        3         1000 bbbbbbbb\n" := by
  decide +kernel

end Verif.Props
