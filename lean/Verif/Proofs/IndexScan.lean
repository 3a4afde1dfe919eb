import Verif.Proofs.Hex

namespace Verif.Index
open Verif Spec

/-- A record that `IDX_Insert` can have written. -/
def GoodRec (r : Bytes) : Prop := r.length = 32 ∧ beDec ((r.drop 20).take 8) < 2 ^ 63

/-- The entry that a record decodes to. -/
def entryOf (rec : Bytes) : Entry :=
  { key := hexStr (rec.take 12)
    flags := beDec ((rec.drop 12).take 4)
    silo := beDec ((rec.drop 16).take 4)
    off := beDec ((rec.drop 20).take 8)
    cont := hexStr ((rec.drop 28).take 4) }

theorem toInt64_small {n : Nat} (h : n < 2 ^ 63) : toInt64 n = n := by
  unfold toInt64
  have : n % 2 ^ 64 = n := Nat.mod_eq_of_lt (by omega)
  rw [this, if_pos h]

theorem decodeRec_good {r : Bytes} (h : GoodRec r) : decodeRec r = .ok (entryOf r) := by
  unfold decodeRec
  rw [toInt64_small h.2]
  simp [entryOf]

theorem take_app {a b : Bytes} {n : Nat} (h : a.length = n) : (a ++ b).take n = a := by
  subst h; simp

theorem drop_app {a b : Bytes} {n : Nat} (h : a.length = n) : (a ++ b).drop n = b := by
  subst h; simp

theorem idxRecord_spec {i : Ins} (h : i.Valid) :
    ∃ r, idxRecord i.id i.flags i.silo i.off i.cont = .ok r ∧ GoodRec r ∧ entryOf r = i.entry := by
  obtain ⟨hid, hf, hs, ho, hc⟩ := h
  obtain ⟨k, hk1, hk2, hk3⟩ := idxKeyBin_spec 12 i.id hid
  have hcont : ∃ c, contBin i.cont = .ok c
      ∧ c.length = 4 ∧ hexStr c = padKey 8 (i.cont.getD []) := by
    cases hci : i.cont with
    | none => exact ⟨[0,0,0,0], rfl, rfl, by decide⟩
    | some c =>
      obtain ⟨b, h1, h2, h3⟩ := idxKeyBin_spec 4 c (hc c hci)
      exact ⟨b, h1, h2, h3⟩
  obtain ⟨c, hc1, hc2, hc3⟩ := hcont
  refine ⟨k ++ beEnc 4 i.flags ++ beEnc 4 i.silo ++ beEnc 8 i.off ++ c, ?_, ?_, ?_⟩
  · unfold idxRecord
    rw [hk1, hc1]
    rfl
  · have e : (((k ++ beEnc 4 i.flags ++ beEnc 4 i.silo ++ beEnc 8 i.off ++ c).drop 20).take 8)
        = beEnc 8 i.off := by
      rw [List.append_assoc (k ++ beEnc 4 i.flags ++ beEnc 4 i.silo)]
      rw [drop_app (by simp [hk2]), take_app (by simp)]
    constructor
    · simp [hk2, hc2]
    · rw [e, beDec_beEnc]
      exact Nat.lt_of_le_of_lt (Nat.mod_le _ _) ho
  · unfold entryOf Ins.entry
    have e1 : (k ++ beEnc 4 i.flags ++ beEnc 4 i.silo ++ beEnc 8 i.off ++ c).take 12 = k := by
      simp only [List.append_assoc]; exact take_app hk2
    have e2 : ((k ++ beEnc 4 i.flags ++ beEnc 4 i.silo ++ beEnc 8 i.off ++ c).drop 12).take 4
        = beEnc 4 i.flags := by
      simp only [List.append_assoc]; rw [drop_app hk2, take_app (by simp)]
    have e3 : ((k ++ beEnc 4 i.flags ++ beEnc 4 i.silo ++ beEnc 8 i.off ++ c).drop 16).take 4
        = beEnc 4 i.silo := by
      rw [List.append_assoc, List.append_assoc (k ++ beEnc 4 i.flags)]
      rw [drop_app (by simp [hk2]), take_app (by simp)]
    have e4 : ((k ++ beEnc 4 i.flags ++ beEnc 4 i.silo ++ beEnc 8 i.off ++ c).drop 20).take 8
        = beEnc 8 i.off := by
      rw [List.append_assoc (k ++ beEnc 4 i.flags ++ beEnc 4 i.silo)]
      rw [drop_app (by simp [hk2]), take_app (by simp)]
    have e5 : ((k ++ beEnc 4 i.flags ++ beEnc 4 i.silo ++ beEnc 8 i.off ++ c).drop 28).take 4
        = c := by
      rw [drop_app (by simp [hk2])]
      rw [← hc2, List.take_length]
    rw [e1, e2, e3, e4, e5, hk3, hc3]
    simp only [beDec_beEnc]
    congr 1
    · exact Nat.mod_eq_of_lt (by omega)
    · exact Nat.mod_eq_of_lt (by omega)
    · exact Nat.mod_eq_of_lt (by omega)

/-- The digits compared by a lookup. -/
theorem padKey_take (k : Bytes) : (padKey 24 k).take (min k.length 24) = (k.map toLower).take 24 := by
  unfold padKey
  simp only
  rw [List.take_append_of_le_length (by simp; omega), List.take_take]
  rcases Nat.le_total k.length 24 with h | h
  · rw [List.take_of_length_le (by simp; omega), List.take_of_length_le (by simpa using h)]
  · congr 1; omega

theorem matches_iff {k : Bytes} {r : Bytes} (_hr : r.length = 32) :
    Matches k (entryOf r) = true ↔
      (hexStr (r.take 12)).take (min k.length 24) = (k.map toLower).take 24 := by
  unfold Matches entryOf
  simp only [List.isPrefixOf_iff_prefix, List.prefix_iff_eq_take]
  have : ((k.map toLower).take 24).length = min k.length 24 := by simp; omega
  rw [this]
  exact eq_comm

theorem strncase_iff {k : Bytes} {r : Bytes} :
    strncasecmpEq (hexStr (r.take 12)) k (min k.length 24) = true ↔
      (hexStr (r.take 12)).take (min k.length 24) = (k.map toLower).take 24 := by
  unfold strncasecmpEq
  rw [beq_iff_eq, List.map_take, hexStr_map_lower, List.map_take]
  have : (k.map toLower).take (min k.length 24) = (k.map toLower).take 24 := by
    rcases Nat.le_total k.length 24 with h | h
    · rw [Nat.min_eq_left h, List.take_of_length_le (by simp), List.take_of_length_le (by simpa using h)]
    · rw [Nat.min_eq_right h]
  rw [this]

/-- A matching record agrees with the binary key on all complete bytes. -/
theorem match_bytes {k keyP r : Bytes} (hk : hexStr keyP = padKey 24 k)
    (hm : (hexStr (r.take 12)).take (min k.length 24) = (k.map toLower).take 24) :
    r.take (min k.length 24 / 2) = keyP.take (min k.length 24 / 2) := by
  apply hexStr_inj
  rw [hexStr_take, hexStr_take, hk]
  have hle : 2 * (min k.length 24 / 2) ≤ min k.length 24 := by omega
  have e1 := congrArg (List.take (2 * (min k.length 24 / 2))) hm
  rw [List.take_take, Nat.min_eq_left hle] at e1
  rw [hexStr_take, List.take_take] at e1
  rw [Nat.min_eq_left (by omega)] at e1
  rw [e1, ← padKey_take, List.take_take, Nat.min_eq_left hle]

theorem idxScan_unsorted {σ : Type} (f : σ → Entry → σ × Int) (kp : Option Bytes) (keyP : Bytes)
    (hk : hexStr keyP = padKey 24 (kp.getD []))
    (recs : List Bytes) (hr : ∀ r ∈ recs, GoodRec r) (s : σ) :
    idxScan false (min (kp.getD []).length 24) keyP kp f recs s =
      .ok (deliver f ((recs.map entryOf).filter (Matches (kp.getD []))) s) := by
  induction recs generalizing s with
  | nil => rfl
  | cons r rs ih =>
    have hg := hr r (by simp)
    have ih' := fun s => ih (fun x hx => hr x (by simp [hx])) s
    unfold idxScan
    rw [if_neg (by simp [hg.1])]
    simp only [Bool.false_eq_true, false_and, and_false, if_false, List.map_cons]
    by_cases hm : Matches (kp.getD []) (entryOf r) = true
    · have hm' := (matches_iff hg.1).1 hm
      have hb := match_bytes hk hm'
      have hl : (r.take (min (kp.getD []).length 24 / 2)).length
          = (keyP.take (min (kp.getD []).length 24 / 2)).length := by rw [hb]
      rw [if_neg (by rw [(memcmp_eq_eq hl).2 hb]; simp)]
      rw [if_neg (by rw [strncase_iff.2 hm']; simp)]
      rw [decodeRec_good hg]
      simp only [List.filter_cons, hm, ite_true, deliver]
      split
      · rw [ih']
      · rfl
    · simp only [List.filter_cons, hm]
      by_cases h1 : (min (kp.getD []).length 24) ≥ 2 ∧
          memcmp (r.take (min (kp.getD []).length 24 / 2)) (keyP.take (min (kp.getD []).length 24 / 2)) ≠ .eq
      · rw [if_pos h1, ih']; simp
      · rw [if_neg h1]
        by_cases hsome : kp.isSome = true
        · rw [if_pos ⟨hsome, by
            intro hc
            exact hm ((matches_iff hg.1).2 (strncase_iff.1 hc))⟩, ih']; simp
        · exfalso
          have : kp = none := by simpa using hsome
          subst this
          simp [Matches] at hm

/-- Numeric value of a record, so that `memcmp` order is numeric order. -/
abbrev rv (r : Bytes) : Nat := beDec r

theorem take_mono' {a b : Bytes} (hab : a.length = b.length) (m : Nat)
    (h : beDec a ≤ beDec b) : beDec (a.take m) ≤ beDec (b.take m) := by
  have ea := beDec_append (a.take m) (a.drop m)
  have eb := beDec_append (b.take m) (b.drop m)
  rw [List.take_append_drop] at ea eb
  have hl : (b.drop m).length = (a.drop m).length := by simp [hab]
  rw [hl] at eb
  have h1 := beDec_lt (a.drop m)
  have h2 := beDec_lt (b.drop m)
  rw [hl] at h2
  apply Decidable.byContradiction
  intro hc
  have hc' : beDec (b.take m) + 1 ≤ beDec (a.take m) := by omega
  have := Nat.mul_le_mul_right (256 ^ (a.drop m).length) hc'
  rw [Nat.add_mul] at this
  omega

theorem take_mono {a b : Bytes} (ha : a.length = 32) (hb : b.length = 32) (m : Nat)
    (h : beDec a ≤ beDec b) : beDec (a.take m) ≤ beDec (b.take m) :=
  take_mono' (by omega) m h

theorem idxScan_sorted {σ : Type} (f : σ → Entry → σ × Int) (kp : Option Bytes) (keyP : Bytes)
    (hk : hexStr keyP = padKey 24 (kp.getD [])) (hkl : keyP.length = 12)
    (recs : List Bytes) (hr : ∀ r ∈ recs, GoodRec r)
    (hs : recs.Pairwise fun a b => beDec a ≤ beDec b) (s : σ) :
    idxScan true (min (kp.getD []).length 24) keyP kp f recs s =
      .ok (deliver f ((recs.map entryOf).filter (Matches (kp.getD []))) s) := by
  induction recs generalizing s with
  | nil => rfl
  | cons r rs ih =>
    have hg := hr r (by simp)
    have hs' := List.pairwise_cons.1 hs
    have ih' := fun s => ih (fun x hx => hr x (by simp [hx])) hs'.2 s
    have hl : (r.take (min (kp.getD []).length 24 / 2)).length
          = (keyP.take (min (kp.getD []).length 24 / 2)).length := by
      simp [hg.1, hkl]; omega
    unfold idxScan
    rw [if_neg (by simp [hg.1])]
    simp only [true_and, List.map_cons]
    by_cases hgt : (min (kp.getD []).length 24) ≥ 2 ∧
        memcmp (r.take (min (kp.getD []).length 24 / 2)) (keyP.take (min (kp.getD []).length 24 / 2)) = .gt
    · rw [if_pos hgt]
      have hnone : ∀ x ∈ r :: rs, ¬ Matches (kp.getD []) (entryOf x) = true := by
        intro x hx hm
        have hgx := hr x hx
        have hb := match_bytes hk ((matches_iff hgx.1).1 hm)
        have hle : beDec r ≤ beDec x := by
          rcases List.mem_cons.1 hx with h | h
          · rw [h]; exact Nat.le_refl _
          · exact hs'.1 x h
        have h1 := take_mono hg.1 hgx.1 (min (kp.getD []).length 24 / 2) hle
        have h2 := (memcmp_eq_gt hl).1 hgt.2
        rw [hb] at h1
        omega
      have : (entryOf r :: List.map entryOf rs).filter (Matches (kp.getD [])) = [] := by
        rw [List.filter_eq_nil_iff]
        intro e he
        rw [← List.map_cons (f := entryOf), List.mem_map] at he
        obtain ⟨x, hx, rfl⟩ := he
        exact hnone x hx
      rw [this]; rfl
    · rw [if_neg hgt]
      by_cases hm : Matches (kp.getD []) (entryOf r) = true
      · have hm' := (matches_iff hg.1).1 hm
        have hb := match_bytes hk hm'
        rw [if_neg (by rw [(memcmp_eq_eq hl).2 hb]; simp)]
        rw [if_neg (by rw [strncase_iff.2 hm']; simp)]
        rw [decodeRec_good hg]
        simp only [List.filter_cons, hm, ite_true, deliver]
        split
        · rw [ih']
        · rfl
      · simp only [List.filter_cons, hm]
        by_cases h1 : (min (kp.getD []).length 24) ≥ 2 ∧
            memcmp (r.take (min (kp.getD []).length 24 / 2)) (keyP.take (min (kp.getD []).length 24 / 2)) ≠ .eq
        · rw [if_pos h1, ih']; simp
        · rw [if_neg h1]
          by_cases hsome : kp.isSome = true
          · rw [if_pos ⟨hsome, by
              intro hc
              exact hm ((matches_iff hg.1).2 (strncase_iff.1 hc))⟩, ih']; simp
          · exfalso
            have : kp = none := by simpa using hsome
            subst this
            simp [Matches] at hm

/-! ### Cutting files into records -/

theorem chunksAux_flatten {k : Nat} (hk : 0 < k) (recs : List Bytes) (hr : ∀ r ∈ recs, r.length = k)
    (fuel : Nat) (hf : recs.length ≤ fuel) : chunksAux k fuel recs.flatten = recs := by
  induction recs generalizing fuel with
  | nil => cases fuel <;> simp [chunksAux]
  | cons r rs ih =>
    cases fuel with
    | zero => simp at hf
    | succ fuel =>
      have hrl := hr r (by simp)
      unfold chunksAux
      have hne : (r :: rs).flatten ≠ [] := by
        intro h
        have := congrArg List.length h
        simp [hrl] at this
        omega
      rw [if_neg hne]
      simp only [List.flatten_cons]
      rw [take_app hrl, drop_app hrl, ih (fun x hx => hr x (by simp [hx])) fuel (by simpa using hf)]

theorem length_le_flatten {k : Nat} (_hk : 0 < k) (recs : List Bytes) (hr : ∀ r ∈ recs, r.length = k) :
    recs.flatten.length = k * recs.length := by
  induction recs with
  | nil => simp
  | cons r rs ih =>
    simp only [List.flatten_cons, List.length_append, List.length_cons,
      ih (fun x hx => hr x (by simp [hx])), hr r (by simp)]
    rw [Nat.mul_add]; omega

theorem chunksOf_flatten {k : Nat} (hk : 0 < k) (recs : List Bytes) (hr : ∀ r ∈ recs, r.length = k) :
    chunksOf k recs.flatten = recs := by
  apply chunksAux_flatten hk recs hr
  rw [length_le_flatten hk recs hr]
  exact Nat.le_mul_of_pos_left _ hk

theorem deliver_append {σ : Type} (f : σ → Entry → σ × Int) (as bs : List Entry) (s : σ) :
    deliver f (as ++ bs) s =
      if (deliver f as s).2 = 0 then deliver f bs (deliver f as s).1 else deliver f as s := by
  induction as generalizing s with
  | nil => simp [deliver]
  | cons a as ih =>
    simp only [List.cons_append, deliver]
    split
    · rw [ih]
    · simp

end Verif.Index
