import Verif.Lemmas.Json

/-!
C117: results in JSON.
-/

namespace Verif.Json

open Verif.Text

/-- C117: whatever the storage of results is, the JSON file has one entry for each of them, with different names, and a reader finds each result
under the text of its identifier. -/
theorem C117_all_results (storage : List (List Key × Val)) (hnd : (storage.map (·.1)).Nodup) :
    ∃ entries, dump (.dict (storage.map fun e => (.tup e.1, e.2))) = .obj entries ∧ entries.length = storage.length ∧ (entries.map (·.1)).Nodup ∧
      ∀ e ∈ storage, find (repr (.tup e.1)) entries = some (dump e.2) := by
  have inj : Function.Injective fun l : List Key => JKey.str (repr (.tup l)) := by
    intro a b h
    simp only [JKey.str.injEq] at h
    simpa using repr_injective _ _ h
  have h1 : ((storage.map fun e => (DKey.tup e.1, e.2)).map fun e => jkey e.1) = (storage.map (·.1)).map fun l => JKey.str (repr (.tup l)) := by
    simp [jkey, Function.comp_def]
  have h2 : (([] : List (JKey × Json)).map (·.1) ++ (storage.map fun e => (DKey.tup e.1, e.2)).map fun e => jkey e.1).Nodup := by
    rw [h1]
    simpa using hnd.map inj
  have h3 : ((storage.map fun e => (repr (.tup e.1), dump e.2)).map (·.1)).Nodup := by
    have := hnd.map (f := fun l : List Key => repr (.tup l)) (by
      intro a b h
      simpa using repr_injective _ _ h)
    simpa [Function.comp_def] using this
  refine ⟨storage.map fun e => (repr (.tup e.1), dump e.2), ?_, by simp, h3, ?_⟩
  · rw [dump, dumpDict_eq _ _ h2]
    simp [jkey, name, Function.comp_def]
  · intro e he
    exact find_unique _ h3 _ _ (List.mem_map.2 ⟨e, he, rfl⟩)

/-- Two results of one kernel with different constants. -/
example : let store : List (List Key × Val) :=
      [([.tup [.str "cores".toList, .int 1], .tup [.str "define".toList, .tup [.tup [.str "N".toList, .int 100]]]], .float (5/2)),
       ([.tup [.str "cores".toList, .int 1], .tup [.str "define".toList, .tup [.tup [.str "N".toList, .int 200]]]], .none)]
    (store.map fun e => String.ofList (repr (.tup e.1))) = ["(('cores', 1), ('define', (('N', 100),)))", "(('cores', 1), ('define', (('N', 200),)))"] := by
  decide +kernel

/-- C117, partial: results that consist of texts, numbers, lists and dictionaries with texts as keys are read from the JSON file as they were. Missing:
`None` and other objects, and dictionaries with other keys, see the negations; tuples are read as lists. -/
theorem C117_values_partial (v : Val) (h : Plain v) : load (dump v) = v := roundtrip v h

example : Plain (.dict [(.str "min performance".toList, .float (3/2)), (.str "levels".toList, .list [.str "L1".toList, .str "L2".toList])]) := by
  simp [Plain, PlainDict, PlainList]

/-- C117, partial: the same for values with tuples, which are read as lists. -/
theorem C117_tuples_partial (v : Val) (h : Plain (asLists v)) : load (dump v) = asLists v := by
  rw [← dump_asLists v]
  exact roundtrip _ h

example : load (dump (.tuple [.str "L1".toList, .tuple [.int 3, .bool true]])) = .list [.str "L1".toList, .list [.int 3, .bool true]] := by
  rw [C117_tuples_partial] <;> simp [asLists, asListsAll, Plain, PlainList]

/-- C117, partial: in dictionaries whose keys are not numbers, a reader finds under each text the last value whose key has this text, and nothing
under other texts. -/
theorem C117_texts_partial (l : List (DKey × Val)) (text : DKey → List Char)
    (ht : ∀ e ∈ l, match e.1 with | .str s => text e.1 = s | .tup t => text e.1 = repr (.tup t) | .other t => text e.1 = t | .int _ => False)
    (n : List Char) :
    ∃ entries, dump (.dict l) = .obj entries ∧ (entries.map (·.1)).Nodup ∧
      find n entries = (l.reverse.find? fun e => text e.1 = n).map fun e => dump e.2 := by
  have hk : ∀ e ∈ l, jkey e.1 = .str (text e.1) := by
    intro e he
    have := ht e he
    revert this
    cases e.1 <;> intro h
    · rw [jkey, h]
    · exact h.elim
    · rw [jkey, h]
    · rw [jkey, h]
  obtain ⟨h1, h2, h3⟩ := dumpDict_inv l [] (by simp) (.str n)
  have h4 : ∀ k ∈ (dumpDict l []).map (·.1), ∃ s, k = .str s := by
    intro k hm
    rw [h3] at hm
    simp only [List.map_nil, List.not_mem_nil, false_or, List.mem_map] at hm
    obtain ⟨e, he, rfl⟩ := hm
    exact ⟨_, hk e he⟩
  refine ⟨_, by rw [dump], ?_, ?_⟩
  · rw [List.map_map, show ((fun x => x.1) ∘ fun e : JKey × Json => (name e.1, e.2)) = name ∘ (·.1) from rfl, ← List.map_map]
    refine List.Nodup.map_on ?_ h1
    intro a ha b hb hab
    obtain ⟨s, rfl⟩ := h4 a ha
    obtain ⟨t, rfl⟩ := h4 b hb
    simpa [name] using hab
  · rw [find_names _ h1 h4, h2]
    have h5 : (l.reverse.find? fun e => jkey e.1 = .str n) = l.reverse.find? fun e => text e.1 = n := by
      refine find_congr _ _ _ fun e he => ?_
      rw [hk e (List.mem_reverse.1 he)]
      simp
    rw [h5]
    simp [firstOf]

/-- The symbol and the text `N` as keys: the later value is read. -/
example : ∃ entries, dump (.dict [(.str ['N'], .int 10), (.other ['N'], .int 20)]) = .obj entries ∧ find ['N'] entries = some (dump (.int 20)) := by
  obtain ⟨entries, h1, -, h2⟩ := C117_texts_partial [(.str ['N'], .int 10), (.other ['N'], .int 20)]
    (fun k => match k with | .str s => s | .tup t => repr (.tup t) | .other t => t | .int _ => []) (by simp) ['N']
  exact ⟨entries, h1, by rw [h2]; simp⟩

/-- C117 does not hold for values: `None` (such as the number of uops with OSACA) is written as the text "None". -/
theorem C117_negation_none : dump .none = dump (.str "None".toList) := rfl

/-- C117 does not hold for dictionaries with numbers as keys beside the same texts: the JSON object has a name twice, and one value is lost. -/
theorem C117_negation_keys : ∃ entries, dump (.dict [(.int 1, .int 10), (.str ['1'], .int 20)]) = .obj entries ∧ entries.map (·.1) = [['1'], ['1']] ∧
    find ['1'] entries = some (.int 20) :=
  ⟨[(['1'], .int 10), (['1'], .int 20)], by simp only [dump, dumpDict]; simp [assign, jkey, name]; decide +kernel, rfl, rfl⟩

end Verif.Json
