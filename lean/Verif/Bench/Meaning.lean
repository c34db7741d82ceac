import Verif.Bench.Props

/-!
# What DynamoDB JSON means, and that the converter of the benchmark reads and writes it (C87)
-/

namespace Verif.Bench

variable {ν : Type}

/-! ## Specification -/

/-- Texts of numbers, and the numbers. -/
inductive MeansNums (N : Numbers ν) : List (Value ν) → List (Value ν) → Prop where
  | nil : MeansNums N [] []
  | cons (s : Bytes) (n : ν) (l r : List (Value ν)) : N.parse s = some n → MeansNums N l r → MeansNums N (.str s :: l) (.num n :: r)

/-- A list of strings. -/
def Strings (v : Value ν) : Prop := ∃ l : List Bytes, v = .arr (l.map .str)

mutual
/-- An attribute value of DynamoDB and the plain value it means. If `loose`, then the values of `S`, `B`, `BOOL`, `NULL`, `SS` and `BS` can be anything. -/
inductive Means (N : Numbers ν) (loose : Bool) : Value ν → Value ν → Prop where
  | str (v : Value ν) : loose = true ∨ (∃ s, v = .str s) → Means N loose (.obj [([83], v)]) v
  | binary (v : Value ν) : loose = true ∨ (∃ s, v = .str s) → Means N loose (.obj [([66], v)]) v
  | number (s : Bytes) (n : ν) : N.parse s = some n → Means N loose (.obj [([78], .str s)]) (.num n)
  | bool (v : Value ν) : loose = true ∨ (∃ b, v = .bool b) → Means N loose (.obj [([66, 79, 79, 76], v)]) v
  | null (v : Value ν) : loose = true ∨ v = .bool true → Means N loose (.obj [([78, 85, 76, 76], v)]) .null
  | strings (v : Value ν) : loose = true ∨ Strings v → Means N loose (.obj [([83, 83], v)]) v
  | binaries (v : Value ν) : loose = true ∨ Strings v → Means N loose (.obj [([66, 83], v)]) v
  | numbers (l r : List (Value ν)) : MeansNums N l r → Means N loose (.obj [([78, 83], .arr l)]) (.arr r)
  | list (l r : List (Value ν)) : MeansList N loose l r → Means N loose (.obj [([76], .arr l)]) (.arr r)
  | map (m r : List (Bytes × Value ν)) : MeansFields N loose m r → Means N loose (.obj [([77], .obj m)]) (.obj r)
/-- The same for lists. -/
inductive MeansList (N : Numbers ν) (loose : Bool) : List (Value ν) → List (Value ν) → Prop where
  | nil : MeansList N loose [] []
  | cons (t v : Value ν) (l r : List (Value ν)) : Means N loose t v → MeansList N loose l r → MeansList N loose (t :: l) (v :: r)
/-- The same for fields: the names and their order stay. -/
inductive MeansFields (N : Numbers ν) (loose : Bool) : List (Bytes × Value ν) → List (Bytes × Value ν) → Prop where
  | nil : MeansFields N loose [] []
  | cons (k : Bytes) (t v : Value ν) (l r : List (Bytes × Value ν)) : Means N loose t v → MeansFields N loose l r → MeansFields N loose ((k, t) :: l) ((k, v) :: r)
end

/-- A document with these fields: an object whose only field is `Item`, or an object that is not of this kind. -/
def Document (wrapped : Bool) (t : Value ν) (fields : List (Bytes × Value ν)) : Prop :=
  if wrapped then t = .obj [([73, 116, 101, 109], .obj fields)] else t = .obj fields ∧ ∀ v, fields ≠ [([73, 116, 101, 109], v)]

/-! ## Reading -/

variable (N : Numbers ν)

theorem fields_keys {loose : Bool} : ∀ {m r : List (Bytes × Value ν)}, MeansFields N loose m r → r.map (·.1) = m.map (·.1)
  | _, _, .nil => rfl
  | _, _, .cons k t v l r _ h => by rw [List.map_cons, List.map_cons, fields_keys h]

theorem numbers_means : ∀ {l r : List (Value ν)}, numbers N l = .ok r → MeansNums N l r
  | [], _, h => by cases h; exact .nil
  | .str s :: l, r, h => by
    unfold numbers at h
    split at h
    · cases h
    · rename_i n hn
      split at h
      · cases h
      · rename_i hl
        cases h
        exact .cons s n _ _ hn (numbers_means hl)
  | .null :: _, _, h => by cases h
  | .bool _ :: _, _, h => by cases h
  | .num _ :: _, _, h => by cases h
  | .arr _ :: _, _, h => by cases h
  | .obj _ :: _, _, h => by cases h

theorem means_numbers {l r : List (Value ν)} (h : MeansNums N l r) : numbers N l = .ok r := by
  induction h with
  | nil => rfl
  | cons s n l r hn _ ih =>
    unfold numbers
    rw [hn]
    simp only
    rw [ih]

mutual
theorem unmarshall_means : ∀ {t v : Value ν}, t.Ok → unmarshall N t = .ok v → Means N true t v
  | .obj [(key, x)], v, h, e => by
    have hx : x.Ok := h.2.1
    unfold unmarshall at e
    split at e
    · rename_i hk; subst hk; cases e; exact .str _ (.inl rfl)
    split at e
    · rename_i hk
      subst hk
      split at e
      · split at e
        · cases e
        · rename_i hn
          cases e
          exact .number _ _ hn
      · cases e
    split at e
    · rename_i hk; subst hk; cases e; exact .bool _ (.inl rfl)
    split at e
    · rename_i hk; subst hk; cases e; exact .null _ (.inl rfl)
    split at e
    · rename_i hk
      subst hk
      split at e
      · rename_i m
        split at e
        · cases e
        · rename_i hr
          cases e
          obtain ⟨r', h1, h2⟩ := unmarshallMap_means hx.2 hr
          rw [insertAll_fresh r' [] (by rw [List.nil_append, fields_keys N h1]; exact hx.1), List.nil_append] at h2
          rw [h2]
          exact .map _ _ h1
      · cases e
    split at e
    · rename_i hk
      subst hk
      split at e
      · rename_i l
        split at e
        · cases e
        · rename_i hr
          cases e
          exact .list _ _ (unmarshallList_means hx hr)
      · cases e
    split at e
    · rename_i hk; subst hk; cases e; exact .strings _ (.inl rfl)
    split at e
    · rename_i hk
      subst hk
      split at e
      · split at e
        · cases e
        · rename_i hr
          cases e
          exact .numbers _ _ (numbers_means N hr)
      · cases e
    split at e
    · rename_i hk; subst hk; cases e; exact .binaries _ (.inl rfl)
    split at e
    · rename_i hk; subst hk; cases e; exact .binary _ (.inl rfl)
    · cases e
  | .obj [], _, _, e => by cases e
  | .obj (_ :: _ :: _), _, _, e => by cases e
  | .null, _, _, e => by cases e
  | .bool _, _, _, e => by cases e
  | .num _, _, _, e => by cases e
  | .str _, _, _, e => by cases e
  | .arr _, _, _, e => by cases e
theorem unmarshallList_means : ∀ {l r : List (Value ν)}, OkList l → unmarshallList N l = .ok r → MeansList N true l r
  | [], _, _, e => by cases e; exact .nil
  | v :: l, r, h, e => by
    unfold unmarshallList at e
    split at e
    · cases e
    · rename_i hv
      split at e
      · cases e
      · rename_i hl
        cases e
        exact .cons _ _ _ _ (unmarshall_means h.1 hv) (unmarshallList_means h.2 hl)
theorem unmarshallMap_means : ∀ {m : List (Bytes × Value ν)} {acc r : Map ν}, OkMap m → unmarshallMap N acc m = .ok r →
    ∃ r', MeansFields N true m r' ∧ r = insertAll acc r'
  | [], acc, r, _, e => by cases e; exact ⟨[], .nil, rfl⟩
  | (k, v) :: m, acc, r, h, e => by
    unfold unmarshallMap at e
    split at e
    · cases e
    · rename_i x hv
      obtain ⟨r', h1, h2⟩ := unmarshallMap_means h.2 e
      exact ⟨(k, x) :: r', .cons _ _ _ _ _ (unmarshall_means h.1 hv) h1, h2⟩
end

mutual
theorem means_unmarshall {loose : Bool} : ∀ {t v : Value ν}, Means N loose t v → t.Ok → unmarshall N t = .ok v
  | _, _, .str v _, _ => rfl
  | _, _, .binary v _, _ => rfl
  | _, _, .number s n h, _ => by
    show (match N.parse s with | none => _ | some n => _ : Except Fault (Value ν)) = _
    rw [h]
  | _, _, .bool v _, _ => rfl
  | _, _, .null v _, _ => rfl
  | _, _, .strings v _, _ => rfl
  | _, _, .binaries v _, _ => rfl
  | _, _, .numbers l r h, _ => by
    show (match numbers N l with | .error e => _ | .ok r => _ : Except Fault (Value ν)) = _
    rw [means_numbers N h]
  | _, _, .list l r h, hk => by
    show (match unmarshallList N l with | .error e => _ | .ok r => _ : Except Fault (Value ν)) = _
    rw [means_unmarshallList h hk.2.1]
  | _, _, .map m r h, hk => by
    show (match unmarshallMap N [] m with | .error e => _ | .ok r => _ : Except Fault (Value ν)) = _
    rw [means_unmarshallMap [] h hk.2.1.2, insertAll_fresh r [] (by rw [List.nil_append, fields_keys N h]; exact hk.2.1.1)]
    rfl
theorem means_unmarshallList {loose : Bool} : ∀ {l r : List (Value ν)}, MeansList N loose l r → OkList l → unmarshallList N l = .ok r
  | _, _, .nil, _ => rfl
  | _, _, .cons t v l r h1 h2, hk => by
    unfold unmarshallList
    rw [means_unmarshall h1 hk.1]
    simp only
    rw [means_unmarshallList h2 hk.2]
theorem means_unmarshallMap {loose : Bool} : ∀ {m r : List (Bytes × Value ν)} (acc : Map ν), MeansFields N loose m r → OkMap m →
    unmarshallMap N acc m = .ok (insertAll acc r)
  | _, _, _, .nil, _ => rfl
  | _, _, acc, .cons k t v l r h1 h2, hk => by
    unfold unmarshallMap
    rw [means_unmarshall h1 hk.1]
    simp only
    rw [means_unmarshallMap _ h2 hk.2]
    rfl
end

theorem unwrap_document {o o' : Map ν} (h : unwrapItem o = .ok o') : ∃ w, Document w (.obj o) o' := by
  unfold unwrapItem at h
  split at h
  · rename_i k v
    split at h
    · rename_i hk
      subst hk
      split at h
      · cases h
        exact ⟨true, rfl⟩
      · cases h
    · rename_i hk
      cases h
      refine ⟨false, rfl, fun v' e => hk ?_⟩
      simp only [List.cons.injEq, Prod.mk.injEq] at e
      exact e.1.1
  · rename_i hn
    cases h
    exact ⟨false, rfl, fun v e => hn _ _ e⟩

/-- **C87**, reading: `from_dynamodb` returns `Ok` exactly for a document, with or without a wrapper, whose fields are attribute values in the loose sense, and
returns the object of what they mean. Everything else is an error. `ht`: the keys of an object are different, as they are in `serde_json`. -/
theorem C87_reads (t y : Value ν) (ht : t.Ok) : fromDynamodb N t = .ok y ↔
    ∃ wrapped fields r, Document wrapped t fields ∧ MeansFields N true fields r ∧ y = .obj r := by
  constructor
  · intro h
    unfold fromDynamodb at h
    split at h
    · rename_i o
      split at h
      · cases h
      · rename_i o' ho
        split at h
        · cases h
        · rename_i r hr
          cases h
          obtain ⟨w, hw⟩ := unwrap_document ho
          have hok : (Value.obj o').Ok := by
            unfold Document at hw
            split at hw
            · cases hw
              exact ht.2.1
            · cases hw.1
              exact ht
          obtain ⟨r', h1, h2⟩ := unmarshallMap_means N hok.2 hr
          rw [insertAll_fresh r' [] (by rw [List.nil_append, fields_keys N h1]; exact hok.1), List.nil_append] at h2
          exact ⟨w, o', r, hw, h2 ▸ h1, rfl⟩
    · cases h
  · rintro ⟨w, o, r, hd, hm, rfl⟩
    have key : (Value.obj o).Ok → unmarshallMap N [] o = .ok r := by
      intro hok
      rw [means_unmarshallMap N [] hm hok.2, insertAll_fresh r [] (by rw [List.nil_append, fields_keys N hm]; exact hok.1)]
      rfl
    unfold Document at hd
    split at hd
    · subst hd
      show (match unmarshallMap N [] o with | .error e => _ | .ok r => _ : Except Fault (Value ν)) = _
      rw [key ht.2.1]
    · obtain ⟨rfl, hn⟩ := hd
      unfold fromDynamodb
      simp only
      rw [unwrap_bare hn]
      simp only
      rw [key ht]

mutual
theorem Means.loosen : ∀ {t v : Value ν}, Means N false t v → Means N true t v
  | _, _, .str v _ => .str _ (.inl rfl)
  | _, _, .binary v _ => .binary _ (.inl rfl)
  | _, _, .number s n h => .number _ _ h
  | _, _, .bool v _ => .bool _ (.inl rfl)
  | _, _, .null v _ => .null _ (.inl rfl)
  | _, _, .strings v _ => .strings _ (.inl rfl)
  | _, _, .binaries v _ => .binaries _ (.inl rfl)
  | _, _, .numbers l r h => .numbers _ _ h
  | _, _, .list l r h => .list _ _ (MeansList.loosen h)
  | _, _, .map m r h => .map _ _ (MeansFields.loosen h)
theorem MeansList.loosen : ∀ {l r : List (Value ν)}, MeansList N false l r → MeansList N true l r
  | _, _, .nil => .nil
  | _, _, .cons _ _ _ _ h1 h2 => .cons _ _ _ _ (Means.loosen h1) (MeansList.loosen h2)
theorem MeansFields.loosen : ∀ {l r : List (Bytes × Value ν)}, MeansFields N false l r → MeansFields N true l r
  | _, _, .nil => .nil
  | _, _, .cons _ _ _ _ _ h1 h2 => .cons _ _ _ _ _ (Means.loosen h1) (MeansFields.loosen h2)
end

/-- **C87**, reading: DynamoDB JSON is accepted, and taken for what it means. -/
theorem C87_reads_ddb (wrapped : Bool) (t : Value ν) (fields r : List (Bytes × Value ν)) (ht : t.Ok) (hd : Document wrapped t fields)
    (hm : MeansFields N false fields r) : fromDynamodb N t = .ok (.obj r) :=
  (C87_reads N t _ ht).2 ⟨wrapped, fields, r, hd, MeansFields.loosen N hm, rfl⟩

/-! ## Writing -/

mutual
theorem mar_means : ∀ {v : Value ν}, v.Nums (Exact N) → Means N false (mar N v) v
  | .null, _ => .null _ (.inr rfl)
  | .bool b, _ => .bool _ (.inr ⟨b, rfl⟩)
  | .num n, h => .number _ _ h
  | .str s, _ => .str _ (.inr ⟨s, rfl⟩)
  | .arr l, h => .list _ _ (marList_means h)
  | .obj m, h => .map _ _ (marMap_means h)
theorem marList_means : ∀ {l : List (Value ν)}, NumsList (Exact N) l → MeansList N false (marList N l) l
  | [], _ => .nil
  | _ :: _, h => .cons _ _ _ _ (mar_means h.1) (marList_means h.2)
theorem marMap_means : ∀ {m : List (Bytes × Value ν)}, NumsMap (Exact N) m → MeansFields N false (marMap N m) m
  | [], _ => .nil
  | (_, _) :: _, h => .cons _ _ _ _ _ (mar_means h.1) (marMap_means h.2)
end

/-- **C87**, writing: for every object `to_dynamodb` returns `Ok` with DynamoDB JSON, in the wrapper if it is asked for, that means this object, if
its numbers are `Exact` (otherwise see `C84_number`). -/
theorem C87_writes_partial (m : Map ν) (wrapItem : Bool) (hm : (Value.obj m).Ok) (hN : (Value.obj m).Nums (Exact N)) :
    ∃ fields, MeansFields N false fields m ∧
      toDynamodb N wrapItem (.obj m) = .ok (if wrapItem then .obj [([73, 116, 101, 109], .obj fields)] else .obj fields) := by
  have h1 := marshallMap_ok N m [] hm.2 hm.1
  rw [List.nil_append] at h1
  refine ⟨marMap N m, marMap_means N hN, ?_⟩
  unfold toDynamodb
  simp only
  rw [h1]
  cases wrapItem <;> rfl

/-- **C87**, writing: anything but an object is an error. -/
theorem C87_object (x : Value ν) (wrapItem : Bool) (h : ∀ m, x ≠ .obj m) : toDynamodb N wrapItem x = .error .object := by
  cases x with
  | obj m => exact absurd rfl (h m)
  | _ => rfl

/-- **C87 is false** with the strict sense in `C87_reads`: `{"a":{"S":true}}` is accepted, and is no DynamoDB JSON. -/
theorem C87_loose : ∃ t y : Value ν, t.Ok ∧ fromDynamodb N t = .ok y ∧ ¬ ∃ wrapped fields r, Document wrapped t fields ∧ MeansFields N false fields r := by
  refine ⟨.obj [([97], .obj [([83], .bool true)])], .obj [([97], .bool true)], ⟨by simp, ⟨by simp, trivial, trivial⟩, trivial⟩, rfl, ?_⟩
  rintro ⟨w, o, r, hd, hm⟩
  unfold Document at hd
  split at hd
  · simp at hd
  · obtain ⟨e, _⟩ := hd
    cases e
    cases hm with
    | cons _ _ _ _ _ h _ =>
      cases h with
      | str _ h => rcases h with h | ⟨s, h⟩ <;> cases h

/-- The hypotheses of `C87_reads_ddb`: an item with a list of a number, and a set of numbers. Those of `C87_writes_partial` are those of `C84_round_trip_partial`. -/
example : MeansFields exNumbers false [([97], .obj [([76], .arr [.obj [([78], .str [49])]])]), ([98], .obj [([78, 83], .arr [.str [50]])])]
      [([97], .arr [.num [49]]), ([98], .arr [.num [50]])] ∧
    (Value.obj [([97], .obj [([76], .arr [.obj [([78], .str [49])]])]), ([98], .obj [([78, 83], .arr [.str [50]])])] : Value Bytes).Ok :=
  ⟨.cons _ _ _ _ _ (.list _ _ (.cons _ _ _ _ (.number _ _ rfl) .nil)) (.cons _ _ _ _ _ (.numbers _ _ (.cons _ _ _ _ rfl .nil)) .nil),
   by decide, ⟨by simp, ⟨⟨by simp, trivial, trivial⟩, trivial⟩, trivial⟩, ⟨by simp, ⟨trivial, trivial⟩, trivial⟩, trivial⟩

end Verif.Bench
