/-
The hypotheses of C69 are met.
-/
import Verif.Props.StoreTotal
import Verif.Props.StoreExample
import Verif.Proofs.ExampleL

namespace Verif.Props
open Verif Header Gzip Ident Index Wsilo Segjob Getjob Spec Inflate

theorem example_storable : Storable (Example.env 100000) Example.hdr none :=
  ⟨(example_goodJob 100000).1, (example_goodJob 100000).2.1, (example_goodJob 100000).2.2, .inl (by decide), fun i hi => by cases hi⟩

/-- Whatever is to be stored in the empty archive, in whatever pieces, can be stored, up to ten times the size of a silo. -/
example {cs : List Bytes} (h0 : cs ≠ []) (h1 : ∀ c ∈ cs, c ≠ []) (h2 : cs.flatten.length ≤ 1000000) :
    ∃ w' uri, storeObj (Example.env 100000) Example.stored 4000004 emptyWorld Example.hdr none cs = .ok (w', uri) := by
  have he := example_envOk 100000 (by decide)
  refine C69_store_partial Example.stored_zlib Example.stored_live he (roomEnv_of he (by decide)) (N := 0)
    ⟨fun n _ => ⟨rfl, rfl⟩, by decide, fun n f hf => by cases hf⟩ example_storable ⟨by decide, by decide⟩ ⟨h0, h1, by show _ + 100000 < 2 ^ 63; omega⟩ h2
    (by omega) (by omega) ?_
  intro id ho
  obtain ⟨g1, g2⟩ := objectId_good he example_storable.canId ho
  exact ⟨_, C34_empty (fuel := 4000003) rfl (valid_bare _ _ id (by decide) g1 g2)⟩

end Verif.Props
