import Verif.JsonQuery.Index
/-!
# Properties: document queries (C53)
-/
namespace WG.JsonQuery
open WG.Recs WG.ResultSet

variable {C : Prop} {ι : Type}

/-- C53: after any history, a document query returns exactly the documents that contain all the given key-value pairs, at any level, each once, with or without indexes; it
returns NULL only if memory runs out or there are too many rows. What is missing from the full property: databases that are not as `DocsOk` requires, and indexes
that are not exact (`SrcOk`; see the next theorem); and `IsPair` counts every record with at least three fields as a key-value pair. -/
theorem C53_json_query_partial (X : Ix ι) {s : Db ι} (hr : Reach C X s) {args : List Arg} (hD : DocsOk s.h args) {src : Src} (hS : SrcOk s.h src args) (h0 : args ≠ [])
    (mem : JMem) (hash : Nat → Nat) :
    (makeJsonQuery s.h src mem hash args = some none ∧ ¬ Enough mem src args) ∨
    ∃ q rows, makeJsonQuery s.h src mem hash args = some (some q) ∧ (∀ db k, Query.Fetches db k q rows) ∧ q.resCount = some rows.length ∧ rows.Nodup ∧
      ∀ x, x ∈ rows ↔ ∃ d, IsDocument s.h d ∧ d.toNat = x ∧ ∀ a ∈ args, Contains s.h d a.1 a.2 :=
  query_exact (reach_inv hr) hD hS h0 mem hash

/-- The sources of a query: the data records in scan order, a JSON hash index on columns 1 and 2 (if there is one), and a T-tree index on column 1 (if there is one). -/
def sources (h : Heap) (rs : List Word) (T : Option HashIndex.Table) (vtree : Bool) (e : Option Recs.Idx) : Src :=
  ⟨rs, T.map (hashRows h), vtree, e.map fun e => keyRows h e.st treeFuel⟩

/-- C53: the same for databases with maintained indexes. The T-tree index on the key column is any index that the history has created; the JSON hash
index is one as described in `HashOk`. The keys and values that are asked for are values of the database (`V`, `Val`), and the keys are not records. -/
theorem C53_with_indexes_partial {s : ISt} (hs : IReach C s) (hp : s.pend = none) {args : List Arg} (hD : DocsOk s.db.h args)
    {rs : List Word} (hrs : ∀ r, r ∈ rs ↔ Data s.db.h r) {V : Word → Prop} {T : Option HashIndex.Table} (hT : ∀ t, T = some t → HashOk s.db.h V t)
    {e : Option Recs.Idx} (he : ∀ i, e = some i → i ∈ s.db.ix ∧ i.col = 1 ∧ i.mrec = 0#64) (vtree : Bool)
    (ha : ∀ a ∈ args, Val s.db.h a.1 ∧ V a.1 ∧ V a.2 ∧ isRecVal a.1 = false) (h0 : args ≠ []) (mem : JMem) (hash : Nat → Nat) :
    (makeJsonQuery s.db.h (sources s.db.h rs T vtree e) mem hash args = some none ∧ ¬ Enough mem (sources s.db.h rs T vtree e) args) ∨
    ∃ q rows, makeJsonQuery s.db.h (sources s.db.h rs T vtree e) mem hash args = some (some q) ∧ (∀ db k, Query.Fetches db k q rows) ∧ q.resCount = some rows.length ∧ rows.Nodup ∧
      ∀ x, x ∈ rows ↔ ∃ d, IsDocument s.db.h d ∧ d.toNat = x ∧ ∀ a ∈ args, Contains s.db.h d a.1 a.2 := by
  refine query_exact (ireach_inv hs).inv hD ⟨hrs, ?_, ?_⟩ h0 mem hash
  · intro f hf a hA hv r
    obtain ⟨t, rfl, rfl⟩ := Option.map_eq_some_iff.1 hf
    obtain ⟨_, a1, a2, a3⟩ := ha a hA
    exact hashRows_ok (hT t rfl) a1 a2 a3 hv r
  · intro f hf a hA r
    obtain ⟨i, rfl, rfl⟩ := Option.map_eq_some_iff.1 hf
    obtain ⟨e1, e2, e3⟩ := he i rfl
    exact keyRows_ok hs hp e1 e2 e3 (ha a hA).1 r

end WG.JsonQuery
