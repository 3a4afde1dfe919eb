/-
Property C100: messages that are not written whole.
-/
import Verif.Model.ProtoCut
import Verif.Props.Proto

namespace Verif.Props.Cut
open Verif Proto _root_.Verif.ProtoCut

/-- The messages that `proto_out` was called with. -/
def asked (ms : List (Nat × Bytes × Option Nat)) : List (Nat × Bytes) := ms.map fun m => (m.1, m.2.1)

def Small (ms : List (Nat × Bytes × Option Nat)) : Prop := ∀ m ∈ ms, m.1 < 8 ∧ m.2.1.length < 2 ^ 32

/-- The writes of `ms` are complete up to one, of which some bytes are written, and then nothing is written any more. -/
inductive Gone : List (Nat × Bytes × Option Nat) → Prop where
  | cut (cmd : Nat) (p : Bytes) (n : Nat) (ms : List (Nat × Bytes × Option Nat)) : (∀ m ∈ ms, m.2.2 = some 0) → Gone ((cmd, p, some n) :: ms)
  | whole (cmd : Nat) (p : Bytes) (ms : List (Nat × Bytes × Option Nat)) : Gone ms → Gone ((cmd, p, none) :: ms)
  | nil : Gone []

theorem sendCut_silent (ms : List (Nat × Bytes × Option Nat)) (hs : Small ms) (h : ∀ m ∈ ms, m.2.2 = some 0) : sendCut ms = .ok [] := by
  induction ms with
  | nil => rfl
  | cons m ms ih =>
    obtain ⟨h1, h2⟩ := hs m (by simp)
    obtain ⟨a, e1, -⟩ := protoOut_spec m.1 m.2.1 h1 h2
    rw [sendCut, e1, Res.ok_bind, ih (fun m hm => hs m (by simp [hm])) fun m hm => h m (by simp [hm]), Res.ok_bind, h m (by simp)]
    rfl

theorem send_total (ms : List (Nat × Bytes × Option Nat)) (hs : Small ms) : ∃ s, Props.send (asked ms) = .ok s := by
  obtain ⟨s, h, -⟩ := C42_roundtrip (asked ms) (by
    intro m hm
    obtain ⟨x, hx, rfl⟩ := List.mem_map.1 hm
    exact hs x hx)
  exact ⟨s, h⟩

/-- What goes out is a beginning of what would have. -/
theorem sendCut_gone {ms : List (Nat × Bytes × Option Nat)} (h : Gone ms) : Small ms → ∃ s a, Props.send (asked ms) = .ok s ∧ sendCut ms = .ok a ∧ a <+: s := by
  induction h with
  | nil => exact fun _ => ⟨[], [], rfl, rfl, List.prefix_refl _⟩
  | cut cmd p n ms hms =>
    intro hs
    obtain ⟨h1, h2⟩ := hs (cmd, p, some n) (by simp)
    obtain ⟨a, e1, -⟩ := protoOut_spec cmd p h1 h2
    have hs' : Small ms := fun m hm => hs m (by simp [hm])
    obtain ⟨s, e2⟩ := send_total ms hs'
    refine ⟨a ++ p ++ s, (a ++ p).take n, ?_, ?_, ?_⟩
    · rw [asked, List.map_cons, Props.send, e1, Res.ok_bind]
      have e2' := e2
      rw [asked] at e2'
      rw [e2']
      rfl
    · rw [sendCut, e1, Res.ok_bind, sendCut_silent ms hs' hms, Res.ok_bind]
      simp
    · exact (List.take_prefix _ _).trans (List.prefix_append _ _)
  | whole cmd p ms _ ih =>
    intro hs
    obtain ⟨h1, h2⟩ := hs (cmd, p, none) (by simp)
    obtain ⟨a, e1, -⟩ := protoOut_spec cmd p h1 h2
    obtain ⟨s, b, i1, i2, i3⟩ := ih fun m hm => hs m (by simp [hm])
    refine ⟨a ++ p ++ s, a ++ p ++ b, ?_, ?_, ?_⟩
    · rw [asked, List.map_cons, Props.send, e1, Res.ok_bind]
      rw [asked] at i1
      rw [i1]
      rfl
    · rw [sendCut, e1, Res.ok_bind, i2, Res.ok_bind]
      rfl
    · exact (List.prefix_append_right_inj _).2 i3

/-- C100: if nothing is written any more after the first write that fails or is cut (the other side has gone away), then the messages received
are the first ones of those sent, unchanged; and if the last write has ended inside a message, the receiver notices. -/
theorem C100_gone_partial (ms : List (Nat × Bytes × Option Nat)) (hs : Small ms) (h : Gone ms) :
    ∃ a k e, sendCut ms = .ok a ∧ recv (a.length + 1) a = ((asked ms).take k, e) ∧ e ≠ .more ∧ (e = .clean ↔ Props.send ((asked ms).take k) = .ok a) := by
  obtain ⟨s, a, h1, h2, b, h3⟩ := sendCut_gone h hs
  obtain ⟨k, e, r1, r2, r3⟩ := C42_truncated (asked ms) (by
    intro m hm
    obtain ⟨x, hx, rfl⟩ := List.mem_map.1 hm
    exact hs x hx) s a b h1 h3.symm
  exact ⟨a, k, e, h2, r1, r2, r3⟩

/-- Three messages, the second one cut in its contents, the third one not written. -/
example : sendCut [(1, b!"abc", none), (2, b!"hello", some 4), (2, [], some 0)] = .ok ([129, 3] ++ b!"abc" ++ [130, 5] ++ b!"he") ∧
    recv 100 ([129, 3] ++ b!"abc" ++ [130, 5] ++ b!"he") = ([(1, b!"abc")], .broken) := by decide

theorem recv_whole {cmd : Nat} {p : Bytes} {h : Bytes} (hh : ∀ s, protoIn (h ++ s) = .hdr cmd p.length s) (fuel : Nat) (t : Bytes) :
    recv (fuel + 1) (h ++ (p ++ t)) = ((cmd, p) :: (recv fuel t).1, (recv fuel t).2) := by
  rw [recv, hh]
  simp only
  rw [if_neg (by rw [List.length_append]; omega), List.take_left, List.drop_left]

/-- C100: whatever comes later, messages that are written whole, with none cut before them, are received. -/
theorem C100_before (ms : List (Nat × Bytes × Option Nat)) (hs : Small ms) (hw : ∀ m ∈ ms, m.2.2 = none) (ms2 : List (Nat × Bytes × Option Nat)) (hs2 : ∃ t, sendCut ms2 = .ok t) :
    ∃ a t, sendCut (ms ++ ms2) = .ok (a ++ t) ∧ sendCut ms2 = .ok t ∧ ∀ fuel, recv (ms.length + fuel) (a ++ t) = (asked ms ++ (recv fuel t).1, (recv fuel t).2) := by
  obtain ⟨t, ht⟩ := hs2
  induction ms with
  | nil => exact ⟨[], t, ht, ht, fun fuel => by rw [List.length_nil, Nat.zero_add]; rfl⟩
  | cons m ms ih =>
    obtain ⟨h1, h2⟩ := hs m (by simp)
    obtain ⟨h, e1, -, e2, -⟩ := protoOut_spec m.1 m.2.1 h1 h2
    obtain ⟨a, t', i1, i2, i3⟩ := ih (fun m hm => hs m (by simp [hm])) fun m hm => hw m (by simp [hm])
    refine ⟨h ++ m.2.1 ++ a, t', ?_, i2, fun fuel => ?_⟩
    · rw [List.cons_append, sendCut, e1, Res.ok_bind, i1, Res.ok_bind, hw m (by simp)]
      simp
    · rw [List.length_cons, show ms.length + 1 + fuel = ms.length + fuel + 1 by omega, List.append_assoc, List.append_assoc, recv_whole e2, i3]
      rfl

/-- C100: if a write stops within the contents of a message, and what is written afterwards has at least the bytes that are missing, then these
are taken for the end of the message, whatever they are; the receiver goes on in the middle of another message. -/
theorem C100_swallowed {cmd : Nat} (hc : cmd < 8) {p : Bytes} (hp : p.length < 2 ^ 32) {k : Nat} (hk : k < p.length) {ms : List (Nat × Bytes × Option Nat)} {t : Bytes}
    (ht : sendCut ms = .ok t) (hl : p.length - k ≤ t.length) :
    ∃ n a, sendCut ((cmd, p, some n) :: ms) = .ok a ∧ ∀ fuel, recv (fuel + 1) a =
      ((cmd, p.take k ++ t.take (p.length - k)) :: (recv fuel (t.drop (p.length - k))).1, (recv fuel (t.drop (p.length - k))).2) := by
  obtain ⟨h, e1, -, e2, -⟩ := protoOut_spec cmd p hc hp
  refine ⟨h.length + k, h ++ (p.take k ++ t), ?_, fun fuel => ?_⟩
  · rw [sendCut, e1, Res.ok_bind, ht, Res.ok_bind]
    show Res.ok ((h ++ p).take (h.length + k) ++ t) = _
    rw [List.take_length_add_append, List.append_assoc]
  · have hlen : (p.take k ++ t.take (p.length - k)).length = p.length := by
      rw [List.length_append, List.length_take, List.length_take]
      omega
    have e : p.take k ++ t = (p.take k ++ t.take (p.length - k)) ++ t.drop (p.length - k) := by
      rw [List.append_assoc, List.take_append_drop]
    rw [e]
    exact recv_whole (p := p.take k ++ t.take (p.length - k)) (fun s => by rw [hlen]; exact e2 s) fuel _

/-- C100: a message can be received that nobody has sent, with a clean end of the stream: here the mark of the end of an object is taken for
the last byte of its contents. -/
theorem C100_counterexample : ∃ (ms : List (Nat × Bytes × Option Nat)) (a : Bytes), Small ms ∧ sendCut ms = .ok a ∧
    asked ms = [(2, b!"abcde"), (2, [])] ∧ recv (a.length + 1) a = ([(2, b!"abcd" ++ [2])], .clean) :=
  ⟨[(2, b!"abcde", some 6), (2, [], none)], [130, 5] ++ b!"abcd" ++ [2], by
    intro m hm
    simp only [List.mem_cons, List.not_mem_nil, or_false] at hm
    rcases hm with rfl | rfl
    · exact ⟨by decide, by decide⟩
    · exact ⟨by decide, by decide⟩, by decide, by decide, by decide⟩

end Verif.Props.Cut
