import Verif.Bench.Model

/-!
# Properties of the converter in the benchmark (C84)
-/

namespace Verif.Bench

variable {ν : Type}

/-! ## Maps -/

theorem insert_keys (k : Bytes) (v : Value ν) : ∀ m : Map ν, (m.insert k v).map (·.1) = if k ∈ m.map (·.1) then m.map (·.1) else m.map (·.1) ++ [k]
  | [] => rfl
  | (k', v') :: m => by
    unfold Map.insert
    by_cases h : k' = k
    · subst h; simp
    · rw [if_neg h, List.map_cons, insert_keys k v m, List.map_cons]
      by_cases h' : k ∈ m.map (·.1)
      · rw [if_pos h', if_pos (List.mem_cons_of_mem _ h')]
      · rw [if_neg h', if_neg (by simp only [List.mem_cons, not_or]; exact ⟨fun e => h e.symm, h'⟩), List.cons_append]

theorem insert_nodup {k : Bytes} {v : Value ν} {m : Map ν} (h : (m.map (·.1)).Nodup) : ((m.insert k v).map (·.1)).Nodup := by
  rw [insert_keys]
  by_cases h' : k ∈ m.map (·.1)
  · rwa [if_pos h']
  · rw [if_neg h', List.nodup_append]
    refine ⟨h, by simp, ?_⟩
    intro a ha b hb e
    simp only [List.mem_singleton] at hb
    subst hb e
    exact h' ha

theorem insert_fresh (k : Bytes) (v : Value ν) : ∀ m : Map ν, k ∉ m.map (·.1) → m.insert k v = m ++ [(k, v)]
  | [], _ => rfl
  | (k', v') :: m, h => by
    simp only [List.map_cons, List.mem_cons, not_or] at h
    rw [Map.insert, if_neg (fun e => h.1 e.symm), insert_fresh k v m h.2, List.cons_append]

/-- All the entries, one after the other. -/
def insertAll (m : Map ν) (l : List (Bytes × Value ν)) : Map ν := l.foldl (fun m e => m.insert e.1 e.2) m

theorem insertAll_fresh : ∀ (l : List (Bytes × Value ν)) (m : Map ν), ((m ++ l).map (·.1)).Nodup → insertAll m l = m ++ l
  | [], m, _ => (List.append_nil m).symm
  | (k, v) :: l, m, h => by
    have hk : k ∉ m.map (·.1) := by
      intro hm
      rw [List.map_append, List.nodup_append] at h
      exact h.2.2 k hm k (by simp) rfl
    show insertAll (m.insert k v) l = _
    rw [insert_fresh k v m hk, insertAll_fresh l _ (by simpa using h)]
    simp

theorem insertAll_nodup : ∀ (l : List (Bytes × Value ν)) (m : Map ν), (m.map (·.1)).Nodup → ((insertAll m l).map (·.1)).Nodup
  | [], _, h => h
  | (_, _) :: l, _, h => insertAll_nodup l _ (insert_nodup h)

theorem insert_map (f : Value ν → Value ν) (k : Bytes) (v : Value ν) : ∀ m : Map ν,
    Map.insert (m.map fun e => (e.1, f e.2)) k (f v) = (m.insert k v).map fun e => (e.1, f e.2)
  | [] => rfl
  | (k', v') :: m => by
    simp only [List.map_cons, Map.insert]
    split
    · rfl
    · rw [insert_map f k v m, List.map_cons]

theorem insertAll_map (f : Value ν → Value ν) : ∀ (l : List (Bytes × Value ν)) (m : Map ν),
    insertAll (m.map fun e => (e.1, f e.2)) (l.map fun e => (e.1, f e.2)) = (insertAll m l).map fun e => (e.1, f e.2)
  | [], _ => rfl
  | (k, v) :: l, m => by
    show insertAll (Map.insert (m.map fun e => (e.1, f e.2)) k (f v)) (l.map fun e => (e.1, f e.2)) = _
    rw [insert_map, insertAll_map f l]
    rfl

/-! ## Values -/

mutual
/-- A value as `serde_json` has it: the keys of an object are different. -/
def Value.Ok : Value ν → Prop
  | .arr l => OkList l
  | .obj m => (m.map (·.1)).Nodup ∧ OkMap m
  | _ => True
@[inherit_doc Value.Ok]
def OkList : List (Value ν) → Prop
  | [] => True
  | v :: l => v.Ok ∧ OkList l
@[inherit_doc Value.Ok]
def OkMap : List (Bytes × Value ν) → Prop
  | [] => True
  | (_, v) :: m => v.Ok ∧ OkMap m
end

mutual
/-- All numbers in a value have the property `P`. -/
def Value.Nums (P : ν → Prop) : Value ν → Prop
  | .num n => P n
  | .arr l => NumsList P l
  | .obj m => NumsMap P m
  | _ => True
@[inherit_doc Value.Nums]
def NumsList (P : ν → Prop) : List (Value ν) → Prop
  | [] => True
  | v :: l => v.Nums P ∧ NumsList P l
@[inherit_doc Value.Nums]
def NumsMap (P : ν → Prop) : List (Bytes × Value ν) → Prop
  | [] => True
  | (_, v) :: m => v.Nums P ∧ NumsMap P m
end

variable (N : Numbers ν)

/-- `serde_json` reads the number as it writes it. It does for integers; for some floats the last bit is different, as the feature `float_roundtrip` is
not used (Cargo.toml). -/
def Exact (n : ν) : Prop := N.parse (N.print n) = some n

mutual
/-- What `marshall` returns. -/
def mar : Value ν → Value ν
  | .null => .obj [(tNull, .bool true)]
  | .bool b => .obj [(tBool, .bool b)]
  | .num n => .obj [(tN, .str (N.print n))]
  | .str s => .obj [(tS, .str s)]
  | .arr l => .obj [(tL, .arr (marList l))]
  | .obj m => .obj [(tM, .obj (marMap m))]
@[inherit_doc mar]
def marList : List (Value ν) → List (Value ν)
  | [] => []
  | v :: l => mar v :: marList l
@[inherit_doc mar]
def marMap : List (Bytes × Value ν) → List (Bytes × Value ν)
  | [] => []
  | (k, v) :: m => (k, mar v) :: marMap m
end

theorem marMap_eq : ∀ m : List (Bytes × Value ν), marMap N m = m.map fun e => (e.1, mar N e.2)
  | [] => rfl
  | (k, v) :: m => by rw [marMap, marMap_eq m, List.map_cons]

theorem marMap_keys (m : List (Bytes × Value ν)) : (marMap N m).map (·.1) = m.map (·.1) := by
  rw [marMap_eq, List.map_map]
  rfl

mutual
theorem marshall_ok : ∀ v : Value ν, v.Ok → marshall N v = .ok (mar N v)
  | .null, _ => rfl
  | .bool _, _ => rfl
  | .num _, _ => rfl
  | .str _, _ => rfl
  | .arr l, h => by rw [marshall, marshallList_ok l h, mar]
  | .obj m, h => by rw [marshall, marshallMap_ok m [] h.2 h.1, mar]; rfl
theorem marshallList_ok : ∀ l : List (Value ν), OkList l → marshallList N l = .ok (marList N l)
  | [], _ => rfl
  | v :: l, h => by rw [marshallList, marshall_ok v h.1, marshallList_ok l h.2, marList]
theorem marshallMap_ok : ∀ (m : List (Bytes × Value ν)) (r : Map ν), OkMap m → ((r ++ m).map (·.1)).Nodup → marshallMap N r m = .ok (r ++ marMap N m)
  | [], r, _, _ => by rw [marshallMap, marMap, List.append_nil]
  | (k, v) :: m, r, h, hn => by
    have hk : k ∉ r.map (·.1) := by
      intro hm
      rw [List.map_append, List.nodup_append] at hn
      exact hn.2.2 k hm k (by simp) rfl
    rw [marshallMap, marshall_ok v h.1]
    simp only
    rw [insert_fresh _ _ _ hk, marshallMap_ok m _ h.2 (by simpa using hn), marMap, List.append_assoc]
    rfl
end

mutual
theorem unmarshall_mar : ∀ v : Value ν, v.Ok → v.Nums (Exact N) → unmarshall N (mar N v) = .ok v
  | .null, _, _ => rfl
  | .bool _, _, _ => rfl
  | .num n, _, hn => by
    show (match N.parse (N.print n) with | none => _ | some n => _) = _
    rw [show N.parse (N.print n) = some n from hn]
  | .str _, _, _ => rfl
  | .arr l, h, hn => by
    show (match unmarshallList N (marList N l) with | .error e => _ | .ok r => _) = _
    rw [unmarshallList_mar l h hn]
  | .obj m, h, hn => by
    show (match unmarshallMap N [] (marMap N m) with | .error e => _ | .ok r => _) = _
    rw [unmarshallMap_mar m [] h.2 hn h.1]
    rfl
theorem unmarshallList_mar : ∀ l : List (Value ν), OkList l → NumsList (Exact N) l → unmarshallList N (marList N l) = .ok l
  | [], _, _ => rfl
  | v :: l, h, hn => by rw [marList, unmarshallList, unmarshall_mar v h.1 hn.1, unmarshallList_mar l h.2 hn.2]
theorem unmarshallMap_mar : ∀ (m : List (Bytes × Value ν)) (r : Map ν), OkMap m → NumsMap (Exact N) m →
    ((r ++ m).map (·.1)).Nodup → unmarshallMap N r (marMap N m) = .ok (r ++ m)
  | [], r, _, _, _ => by rw [marMap, unmarshallMap, List.append_nil]
  | (k, v) :: m, r, h, hx, hn => by
    have hk : k ∉ r.map (·.1) := by
      intro hm
      rw [List.map_append, List.nodup_append] at hn
      exact hn.2.2 k hm k (by simp) rfl
    rw [marMap, unmarshallMap, unmarshall_mar v h.1 hx.1]
    simp only
    rw [insert_fresh _ _ _ hk, unmarshallMap_mar m _ h.2 hx.2 (by simpa using hn), List.append_assoc]
    rfl
end

theorem okMap_insert {k : Bytes} {v : Value ν} (hv : v.Ok) : ∀ {m : Map ν}, OkMap m → OkMap (m.insert k v)
  | [], _ => ⟨hv, trivial⟩
  | (k', v') :: m, h => by
    unfold Map.insert
    split
    · exact ⟨hv, h.2⟩
    · exact ⟨h.1, okMap_insert hv h.2⟩

theorem numbers_ok : ∀ {l r : List (Value ν)}, numbers N l = .ok r → OkList r
  | [], _, h => by cases h; trivial
  | .str s :: l, r, h => by
    unfold numbers at h
    split at h
    · cases h
    · split at h
      · cases h
      · rename_i hl
        cases h
        exact ⟨trivial, numbers_ok hl⟩
  | .null :: _, _, h => by cases h
  | .bool _ :: _, _, h => by cases h
  | .num _ :: _, _, h => by cases h
  | .arr _ :: _, _, h => by cases h
  | .obj _ :: _, _, h => by cases h

mutual
theorem unmarshall_keeps : ∀ {t v : Value ν}, t.Ok → unmarshall N t = .ok v → v.Ok
  | .obj [(key, x)], v, h, e => by
    have hx : x.Ok := h.2.1
    unfold unmarshall at e
    split at e
    · cases e; exact hx
    split at e
    · split at e
      · split at e
        · cases e
        · cases e; trivial
      · cases e
    split at e
    · cases e; exact hx
    split at e
    · cases e; trivial
    split at e
    · split at e
      · rename_i m
        split at e
        · cases e
        · rename_i hr
          cases e
          exact unmarshallMap_keeps (acc := []) hx.2 List.nodup_nil trivial hr
      · cases e
    split at e
    · split at e
      · rename_i l
        split at e
        · cases e
        · rename_i hr
          cases e
          exact unmarshallList_keeps hx hr
      · cases e
    split at e
    · cases e; exact hx
    split at e
    · split at e
      · split at e
        · cases e
        · rename_i hr
          cases e
          exact numbers_ok N hr
      · cases e
    split at e
    · cases e; exact hx
    split at e
    · cases e; exact hx
    · cases e
  | .obj [], _, _, e => by cases e
  | .obj (_ :: _ :: _), _, _, e => by cases e
  | .null, _, _, e => by cases e
  | .bool _, _, _, e => by cases e
  | .num _, _, _, e => by cases e
  | .str _, _, _, e => by cases e
  | .arr _, _, _, e => by cases e
theorem unmarshallList_keeps : ∀ {l r : List (Value ν)}, OkList l → unmarshallList N l = .ok r → OkList r
  | [], _, _, e => by cases e; trivial
  | v :: l, r, h, e => by
    unfold unmarshallList at e
    split at e
    · cases e
    · rename_i hv
      split at e
      · cases e
      · rename_i hl
        cases e
        exact ⟨unmarshall_keeps h.1 hv, unmarshallList_keeps h.2 hl⟩
theorem unmarshallMap_keeps : ∀ {m : List (Bytes × Value ν)} {acc r : Map ν}, OkMap m → (acc.map (·.1)).Nodup → OkMap acc →
    unmarshallMap N acc m = .ok r → (Value.obj r).Ok
  | [], acc, r, _, hn, ha, e => by cases e; exact ⟨hn, ha⟩
  | (k, v) :: m, acc, r, h, hn, ha, e => by
    unfold unmarshallMap at e
    split at e
    · cases e
    · rename_i hv
      exact unmarshallMap_keeps h.2 (insert_nodup hn) (okMap_insert (unmarshall_keeps h.1 hv) ha) e
end

theorem unwrap_bare {o : Map ν} (h : ∀ v, o ≠ [(tItem, v)]) : unwrapItem o = .ok o := by
  unfold unwrapItem
  split
  · rename_i k v
    rw [if_neg (fun e => h v (by rw [e]))]
  · rfl

/-! ## C84 -/

variable {N}

/-- **C84**: `to_dynamodb` succeeds on every object, and `from_dynamodb` gives the object back. Without the wrapper, the object must not consist of a
field `Item` alone, see `C84_item`, and its numbers must be `Exact`, see `C84_number`. -/
theorem C84_round_trip_partial (m : Map ν) (hm : (Value.obj m).Ok) (hN : (Value.obj m).Nums (Exact N)) (wrapItem : Bool)
    (hw : wrapItem = false → ∀ v, m ≠ [(tItem, v)]) :
    ∃ t, toDynamodb N wrapItem (.obj m) = .ok t ∧ fromDynamodb N t = .ok (.obj m) := by
  have h1 := marshallMap_ok N m [] hm.2 hm.1
  have h2 := unmarshallMap_mar N m [] hm.2 hN hm.1
  rw [List.nil_append] at h1 h2
  unfold toDynamodb
  simp only
  rw [h1]
  cases wrapItem
  · refine ⟨_, rfl, ?_⟩
    have h3 : unwrapItem (marMap N m) = .ok (marMap N m) := unwrap_bare fun x e => by
      rcases m with _ | ⟨⟨k, v⟩, _ | ⟨_, _⟩⟩
      · cases e
      · rw [marMap, marMap, List.cons.injEq, Prod.mk.injEq] at e
        exact hw rfl v (by rw [e.1.1])
      · cases e
    unfold fromDynamodb
    simp only
    rw [h3]
    simp only
    rw [h2]
  · refine ⟨_, rfl, ?_⟩
    show (match unmarshallMap N [] (marMap N m) with | .error e => _ | .ok r => _) = _
    rw [h2]

/-- **C84 is false** without the wrapper for an object with the only field `Item`: `{"Item":n}` becomes `{"Item":{"N":".."}}`, and that is read as an item
with the field `N`, which has no type. -/
theorem C84_item (n : ν) : ∃ t, toDynamodb N false (.obj [(tItem, .num n)]) = .ok t ∧ fromDynamodb N t = .error .typeObject :=
  ⟨_, rfl, rfl⟩

/-- **C84 is false** for a number that `serde_json` does not read as it writes it. -/
theorem C84_number (n : ν) (hn : ¬ Exact N n) (wrapItem : Bool) :
    ∃ t, toDynamodb N wrapItem (.obj [([97], .num n)]) = .ok t ∧ fromDynamodb N t ≠ .ok (.obj [([97], .num n)]) := by
  cases wrapItem <;>
  · refine ⟨_, rfl, ?_⟩
    show (match (match (match N.parse (N.print n) with | none => _ | some n => _ : Except Fault (Value ν)) with
      | .error e => _ | .ok x => _ : Except Fault (Map ν)) with | .error e => _ | .ok r => _) ≠ _
    rcases hp : N.parse (N.print n) with _ | n'
    · nofun
    · intro e
      have e : Value.obj [([97], Value.num n')] = .obj [([97], .num n)] := Except.ok.inj e
      simp only [Value.obj.injEq, List.cons.injEq, Prod.mk.injEq, Value.num.injEq, and_true, true_and] at e
      exact hn (by rw [← e] at hp ⊢; exact hp)

/-- **C84**, the other way round: what `from_dynamodb` makes of a document, `to_dynamodb` turns into a document that stands for the same,
if its numbers are `Exact`. -/
theorem C84_back_partial (t v : Value ν) (ht : t.Ok) (hN : v.Nums (Exact N)) (h : fromDynamodb N t = .ok v) :
    ∃ t', toDynamodb N true v = .ok t' ∧ fromDynamodb N t' = .ok v := by
  unfold fromDynamodb at h
  split at h
  · rename_i o
    split at h
    · cases h
    · rename_i o' ho
      split at h
      · cases h
      · rename_i r hr
        cases h
        have hok : OkMap o' := by
          unfold unwrapItem at ho
          split at ho
          · split at ho
            · split at ho
              · cases ho
                exact ht.2.1.2
              · cases ho
            · cases ho
              exact ht.2
          · cases ho
            exact ht.2
        exact C84_round_trip_partial r (unmarshallMap_keeps N (acc := []) hok List.nodup_nil trivial hr) hN true nofun
  · cases h

/-- **C84 is false** in the stronger form that `to_dynamodb` gives the same document back: a set becomes a list. -/
theorem C84_set (s : Bytes) : fromDynamodb N (.obj [([97], .obj [(tSS, .arr [.str s])])]) = .ok (.obj [([97], .arr [.str s])]) ∧
    toDynamodb N false (.obj [([97], .arr [.str s])]) = .ok (.obj [([97], .obj [(tL, .arr [.obj [(tS, .str s)]])])]) := ⟨rfl, rfl⟩

/-- **C84 is false** in the form that `from_dynamodb` takes only values that have their types: `{"a":{"S":true}}` is taken for `{"a":true}`. -/
theorem C84_loose : fromDynamodb N (.obj [([97], .obj [(tS, .bool true)])]) = .ok (.obj [([97], .bool true)]) := rfl

/-- Numbers that are their text, and the hypotheses of `C84_round_trip_partial` and `C84_back_partial` for `{"a":[1,{}],"Item":null}`. -/
def exNumbers : Numbers Bytes := ⟨some, id⟩

example : (Value.obj [([97], .arr [.num [49], .obj []]), (tItem, .null)] : Value Bytes).Nums (Exact exNumbers) ∧
    (Value.obj [([97], .arr [.num [49], .obj []]), (tItem, .null)] : Value Bytes).Ok ∧
    ((false = false → ∀ v : Value Bytes, [([97], .arr [.num [49], .obj []]), (tItem, .null)] ≠ [(tItem, v)])) ∧
    ∃ t, fromDynamodb exNumbers t = .ok (.obj [([97], .arr [.num [49], .obj []]), (tItem, .null)]) ∧ t.Ok :=
  ⟨⟨⟨rfl, trivial, trivial⟩, trivial, trivial⟩, ⟨by decide, ⟨⟨trivial, ⟨List.nodup_nil, trivial⟩, trivial⟩, trivial, trivial⟩⟩, fun _ v => by simp,
   .obj [([97], .obj [(tL, .arr [.obj [(tN, .str [49])], .obj [(tM, .obj [])]])]), (tItem, .obj [(tNull, .bool true)])], rfl,
   ⟨by decide, ⟨⟨by decide, ⟨⟨⟨by decide, trivial, trivial⟩, ⟨by decide, ⟨List.nodup_nil, trivial⟩, trivial⟩, trivial⟩, trivial⟩⟩, ⟨by decide, trivial, trivial⟩, trivial⟩⟩⟩

/-- The hypothesis of `C84_number`: numbers that are written without their last byte. -/
example : ¬ Exact (⟨some, List.dropLast⟩ : Numbers Bytes) [49, 46, 53] := by
  unfold Exact
  decide

end Verif.Bench
