/-
Property C94: the cache file when it is written in part.
-/
import Verif.Model.StoreErr
import Verif.Props.Commit

namespace Verif.Props
open Verif
open _root_.Verif.Cache (Cache readCache writeCache)
open _root_.Verif.StoreErr (cacheAfter CacheW)

/-- C94: a cache file that could not be opened is as before, one that is written completely has the new numbers. -/
theorem C94_cache_whole (old : Option Bytes) (c d : Cache) (h : c.firstNon < 2 ^ 32 ∧ c.firstSpace < 2 ^ 32) :
    readCache (cacheAfter old (writeCache old c) .noOpen) d = readCache old d ∧ readCache (cacheAfter old (writeCache old c) .fine) d = c :=
  ⟨rfl, C30_roundtrip old c d h.1 h.2⟩

theorem cache_bytes (c : Cache) : ∃ x y : Bytes, x.length = 4 ∧ y.length = 4 ∧ x = beEnc 4 c.firstNon ∧ y = beEnc 4 c.firstSpace :=
  ⟨_, _, beEnc_length _ _, beEnc_length _ _, rfl, rfl⟩

/-- C94: a new cache file of which a part is written is not used; in one that was there, the second number is the old one if only bytes of
the first one were written, and the first number is the new one if all its bytes were. -/
theorem C94_cache_part (c d : Cache) (k : Nat) (hk : k < 8) (hc : c.firstNon < 2 ^ 32) :
    readCache (cacheAfter none (writeCache none c) (.upto k)) d = d ∧
    ∀ o : Bytes, o.length = 8 → ∃ r : Cache, readCache (cacheAfter (some o) (writeCache (some o) c) (.upto k)) d = r ∧
      (k ≤ 4 → r.firstSpace = (readCache (some o) d).firstSpace) ∧ (4 ≤ k → r.firstNon = c.firstNon) ∧ (k = 0 → r = readCache (some o) d) := by
  obtain ⟨x, y, hx, hy, ex, ey⟩ := cache_bytes c
  constructor
  · refine C30_short _ d ?_
    simp only [Option.getD_none, List.drop_nil, List.append_nil, List.length_take]
    omega
  · intro o ho
    have hnew : writeCache (some o) c = x ++ y := by
      unfold writeCache
      rw [ex, ey, Option.getD_some, List.drop_of_length_le (by omega), List.append_nil]
    have hread : ∀ b : Bytes, b.length = 8 → readCache (some b) d = { firstNon := beDec (b.take 4), firstSpace := beDec ((b.drop 4).take 4) } := by
      intro b hb
      unfold readCache
      simp only
      rw [if_pos (by rw [List.length_take]; omega)]
    have hlen : ((x ++ y).take k ++ o.drop k).length = 8 := by
      rw [List.length_append, List.length_take, List.length_drop, List.length_append]
      omega
    refine ⟨_, rfl, ?_, ?_, ?_⟩
    · intro h4
      show (readCache (some ((writeCache (some o) c).take k ++ o.drop k)) d).firstSpace = _
      rw [hnew, hread _ hlen, hread _ ho]
      show beDec _ = beDec _
      rw [List.drop_append, List.length_take, List.length_append, List.drop_of_length_le (by rw [List.length_take]; omega), List.nil_append, List.drop_drop]
      have : k + (4 - min k (x.length + y.length)) = 4 := by omega
      rw [this]
    · intro h4
      show (readCache (some ((writeCache (some o) c).take k ++ o.drop k)) d).firstNon = _
      rw [hnew, hread _ hlen]
      show beDec _ = _
      rw [List.take_append_of_le_length (by rw [List.length_take, List.length_append]; omega), List.take_take, Nat.min_eq_left h4,
        List.take_append_of_le_length (by omega), List.take_of_length_le (by omega), ex, beDec_beEnc]
      exact Nat.mod_eq_of_lt hc
    · intro h0
      subst h0
      show readCache (some ((writeCache (some o) c).take 0 ++ o.drop 0)) d = _
      rw [List.take_zero, List.nil_append, List.drop_zero]

/-- C94: it is not always one of the numbers that were written: the file had 255 as the first number without a silo, 256 was to be
written, only three bytes were, and the next store begins its search at 511, behind a gap of more than a hundred numbers; `Silo_Iter` does
not find silos there (silo.c:102-104). -/
theorem C94_counterexample_cache : ∃ (c c' d : Cache) (k : Nat), c.firstNon = 255 ∧ c'.firstNon = 256 ∧
    (readCache (cacheAfter (some (writeCache none c)) (writeCache (some (writeCache none c)) c') (.upto k)) d).firstNon = 511 :=
  ⟨⟨255, 7⟩, ⟨256, 7⟩, ⟨0, 0⟩, 3, rfl, rfl, by decide +kernel⟩

example : cacheAfter (some [0, 0, 0, 255, 0, 0, 0, 7]) (writeCache (some [0, 0, 0, 255, 0, 0, 0, 7]) ⟨256, 9⟩) (.upto 5) = some [0, 0, 1, 0, 0, 0, 0, 7] := by
  decide

end Verif.Props
