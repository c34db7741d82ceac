import Verif.Bench.Props
import Verif.Ddb.SoundDdb
import Verif.Scan.HeldProps
import Verif.Scan.CutCalls

/-!
# The streaming converters and the converter of the benchmark agree (property C85)

Two texts are compared as JSON: by the value that `serde_json` reads from them.
-/

namespace Verif.Bench

open Verif.RJiter
open Verif.Scan (Val Items Members Docs Reading AtomGives strBody_same Usual number_bytes number_first)
open Verif.Ddb

variable {ν : Type} (N : Numbers ν)

/-- How `serde_json` reads a document: strings are decoded, numbers are parsed and may be refused. -/
def reading : Reading := ⟨fun tok => (N.parse tok).isSome, fun body s => ∃ chars, StrBody true body chars ∧ s = encAll chars⟩

/-- How `serde_json` puts a value together: of two members with the same key the last counts. -/
def build : Build (Value ν) where
  null := .null
  bool := .bool
  num tok := (N.parse tok).elim .null .num
  str := .str
  arr := .arr
  obj l := .obj (insertAll [] l)

/-- The document stands for this value. -/
abbrev Stands (v : Val) (x : Value ν) : Prop := v.Gives (reading N) (build N) x

/-- A number that `serde_json` writes as it has read it. -/
def Canon (tok : Bytes) : Prop := Number tok → ∀ n, N.parse tok = some n → N.print n = tok

/-! ## Strings without escapes -/

theorem ascii_str : ∀ (l : Bytes), (∀ c ∈ l, 32 ≤ c.toNat ∧ c.toNat < 128 ∧ c ≠ 34 ∧ c ≠ 92) → (reading N).str l l
  | [], _ => ⟨[], .nil, rfl⟩
  | c :: l, h => by
    obtain ⟨s, h1, h2⟩ := ascii_str l fun x hx => h x (List.mem_cons_of_mem _ hx)
    obtain ⟨h3, h4, h5, h6⟩ := h c List.mem_cons_self
    have he : enc (Char.ofNat c.toNat) = [c] ∧ PlainChar (Char.ofNat c.toNat) := by
      have : ∀ n : Fin 128, 32 ≤ n.val → n.val ≠ 34 → n.val ≠ 92 → enc (Char.ofNat n.val) = [UInt8.ofNat n.val] ∧
          32 ≤ (Char.ofNat n.val).toNat ∧ Char.ofNat n.val ≠ '"' ∧ Char.ofNat n.val ≠ '\\' := by decide +kernel
      have := this ⟨c.toNat, h4⟩ h3 (fun e => h5 (UInt8.toNat.inj e)) (fun e => h6 (UInt8.toNat.inj e))
      rw [UInt8.ofNat_toNat] at this
      exact this
    refine ⟨Char.ofNat c.toNat :: s, ?_, ?_⟩
    · have := StrBody.char (pairs := true) _ l s he.2 h1
      rwa [he.1] at this
    · show c :: l = enc (Char.ofNat c.toNat) ++ encAll s
      rw [he.1, ← h2]
      rfl

theorem number_str {tok : Bytes} (h : Number tok) : (reading N).str tok tok := by
  apply ascii_str
  intro c hc
  rcases number_bytes h c hc with h | rfl | rfl | rfl | rfl | rfl
  · obtain ⟨h1, h2⟩ := h
    refine ⟨by omega, by omega, ?_, ?_⟩ <;> (rintro rfl; simp at h1 h2)
  all_goals decide

theorem number_no_escape {tok : Bytes} (h : Number tok) : 92 ∉ tok := by
  intro hc
  rcases number_bytes h 92 hc with h | h | h | h | h | h
  · obtain ⟨_, h⟩ := h
    simp at h
  all_goals cases h

theorem name_str (l : Bytes) (h : (l.all fun c => decide (65 ≤ c.toNat ∧ c.toNat < 91 ∨ 97 ≤ c.toNat ∧ c.toNat < 123)) = true) : (reading N).str l l := by
  apply ascii_str
  intro c hc
  have := of_decide_eq_true (List.all_eq_true.1 h c hc)
  refine ⟨by omega, by omega, ?_, ?_⟩ <;> (rintro rfl; revert this; decide)

theorem str_same {body s : Bytes} (h : (reading N).str body s) (h92 : 92 ∉ body) : s = body := by
  obtain ⟨chars, h1, rfl⟩ := h
  exact strBody_same h1 h92

/-! ## `to_dynamodb` -/

variable {N}

theorem okMap_insertAll : ∀ {l : List (Bytes × Value ν)} {m : Map ν}, OkMap m → OkMap l → OkMap (insertAll m l)
  | [], _, h, _ => h
  | (k, v) :: l, m, h, h' => okMap_insertAll (m := m.insert k v) (okMap_insert h'.1 h) h'.2

mutual
/-- What `serde_json` reads has different keys. -/
theorem stands_ok : ∀ {v : Val} {x : Value ν}, Stands N v x → x.Ok
  | .atom _, x, h => by
    cases h with
    | null => trivial
    | true => trivial
    | false => trivial
    | number _ h hn =>
      obtain ⟨n, hn⟩ := Option.isSome_iff_exists.1 hn
      show (Value.Ok ((N.parse _).elim .null .num))
      rw [hn]
      trivial
    | string => trivial
  | .arr _ items, x, h => by
    obtain ⟨_, l, hl, rfl⟩ := h
    exact items_ok hl
  | .obj _ members, x, h => by
    obtain ⟨_, l, hl, rfl⟩ := h
    exact ⟨insertAll_nodup _ _ List.nodup_nil, okMap_insertAll trivial (members_ok hl)⟩
theorem items_ok : ∀ {is : Items} {l : List (Value ν)}, is.Gives (reading N) (build N) l → OkList l
  | .nil, l, h => by
    obtain rfl : l = [] := h
    trivial
  | .cons _ _ _ _, l, h => by
    obtain ⟨_, _, x, xs, h1, h2, rfl⟩ := h
    exact ⟨stands_ok h1, items_ok h2⟩
theorem members_ok : ∀ {ms : Members} {l : List (Bytes × Value ν)}, ms.Gives (reading N) (build N) l → OkMap l
  | .nil, l, h => by
    obtain rfl : l = [] := h
    trivial
  | .cons _ _ _ _ _ _ _, l, h => by
    obtain ⟨_, _, _, _, key, x, xs, _, h1, h2, rfl⟩ := h
    exact ⟨stands_ok h1, members_ok h2⟩
end

theorem insertAll_marMap (l : List (Bytes × Value ν)) : insertAll [] (marMap N l) = marMap N (insertAll [] l) := by
  rw [marMap_eq, marMap_eq]
  exact insertAll_map (mar N) l []

theorem wrap_gives (p : Bool) (d : Nat) {name : Bytes} {v : Val} {x : Value ν} (hn : (reading N).str name name) (h : Stands N v x) :
    Stands N (wrap p d name v) (.obj [(name, x)]) :=
  ⟨spaces_nil, [(name, x)], ⟨spaces_append (spaces_nl p) (spaces_ind p _), spaces_nil, spaces_nil, spaces_append (spaces_nl p) (spaces_ind p d),
    name, x, [], hn, h, rfl, rfl⟩, rfl⟩

theorem atomType_number {tok : Bytes} (h : Number tok) : atomType tok = ([78], quoted tok) := by
  obtain ⟨c, t, rfl, hc⟩ := number_first h
  unfold atomType
  split
  · rename_i e; injection e with e; subst e; simp at hc
  · rename_i e; injection e with e; subst e; simp at hc
  · rename_i e; injection e with e; subst e; simp at hc
  · rename_i e; injection e with e; subst e; simp at hc
  · rfl

/-- The type of an atom. -/
theorem atom_gives {tok : Bytes} {x : Value ν} (h : AtomGives (reading N) (build N) tok x) (hc : Canon N tok) :
    ∃ y, AtomGives (reading N) (build N) (atomType tok).2 y ∧ (reading N).str (atomType tok).1 (atomType tok).1 ∧
      mar N x = .obj [((atomType tok).1, y)] := by
  cases h with
  | null => exact ⟨.bool true, .true, name_str N _ (by decide), rfl⟩
  | true => exact ⟨.bool true, .true, name_str N _ (by decide), rfl⟩
  | false => exact ⟨.bool false, .false, name_str N _ (by decide), rfl⟩
  | number _ h hn =>
    rw [atomType_number h]
    refine ⟨.str tok, .string tok tok (number_str N h), name_str N [78] (by decide), ?_⟩
    obtain ⟨n, hn⟩ := Option.isSome_iff_exists.1 hn
    show mar N ((N.parse tok).elim .null .num) = _
    rw [hn]
    show Value.obj [(tN, Value.str (N.print n))] = _
    rw [hc h n hn]
    rfl
  | string body s h => exact ⟨.str s, .string body s h, name_str N [83] (by decide), rfl⟩

mutual
/-- The typed form of a document stands for what the other converter makes of it. -/
theorem typed_gives (p : Bool) : ∀ (d : Nat) (v : Val) (x : Value ν), Stands N v x → Atoms (Canon N) v → Stands N (typed p d v) (mar N x)
  | d, .atom tok, x, h, ha => by
    obtain ⟨y, h1, h2, h3⟩ := atom_gives h ha
    rw [h3]
    exact wrap_gives p d h2 h1
  | d, .arr w items, x, h, ha => by
    obtain ⟨_, l, hl, rfl⟩ := h
    exact wrap_gives p d (name_str N _ (by decide))
      ⟨spaces_closeItems (spaces_append (spaces_nl p) (spaces_append (spaces_nl p) (spaces_ind p _))) _, marList N l,
        typedItems_gives p (d + 1) _ (spaces_append (spaces_nl p) (spaces_ind p _)) items l hl ha, rfl⟩
  | d, .obj w members, x, h, ha => by
    obtain ⟨_, l, hl, rfl⟩ := h
    exact wrap_gives p d (name_str N _ (by decide))
      ⟨spaces_closeMembers (spaces_append (spaces_nl p) (spaces_append (spaces_nl p) (spaces_ind p _))) _, marMap N l,
        typedMembers_gives p (d + 2) _ (spaces_append (spaces_nl p) (spaces_ind p _)) members l hl ha, by
          show Value.obj (marMap N (insertAll [] l)) = Value.obj (insertAll [] (marMap N l))
          rw [insertAll_marMap]⟩
theorem typedItems_gives (p : Bool) : ∀ (d : Nat) (close : Bytes), Spaces close → ∀ (is : Items) (l : List (Value ν)),
    is.Gives (reading N) (build N) l → AtomsItems (Canon N) is → (typedItems p d close is).Gives (reading N) (build N) (marList N l)
  | d, close, hc, .nil, l, h, _ => by
    obtain rfl : l = [] := h
    exact rfl
  | d, close, hc, .cons _ v _ more, l, h, ha => by
    obtain ⟨_, _, x, xs, h1, h2, rfl⟩ := h
    exact ⟨spaces_nl p, spaces_closeItems hc _, _, _, typed_gives p d v x h1 ha.1, typedItems_gives p d close hc more xs h2 ha.2, rfl⟩
theorem typedMembers_gives (p : Bool) : ∀ (d : Nat) (close : Bytes), Spaces close → ∀ (ms : Members) (l : List (Bytes × Value ν)),
    ms.Gives (reading N) (build N) l → AtomsMembers (Canon N) ms → (typedMembers p d close ms).Gives (reading N) (build N) (marMap N l)
  | d, close, hc, .nil, l, h, _ => by
    obtain rfl : l = [] := h
    exact rfl
  | d, close, hc, .cons _ k _ _ v _ more, l, h, ha => by
    obtain ⟨_, _, _, _, key, x, xs, hk, h1, h2, rfl⟩ := h
    exact ⟨spaces_append (spaces_nl p) (spaces_ind p d), spaces_nil, spaces_nil, spaces_closeMembers hc _, key, _, _, hk, typed_gives p d v x h1 ha.1,
      typedMembers_gives p d close hc more xs h2 ha.2, rfl⟩
end

/-- For an object, the right output of `convert_normal_to_ddb` stands for what `to_dynamodb` returns. -/
theorem typedDoc_gives (item p : Bool) (w : Bytes) (members : Members) (x : Value ν) (h : Stands N (.obj w members) x)
    (ha : AtomsMembers (Canon N) members) :
    ∃ y, toDynamodb N item x = .ok y ∧ Stands N (typedDoc item p (.obj w members)) y := by
  have hok := stands_ok h
  obtain ⟨_, l, hl, rfl⟩ := h
  have h1 : marshallMap N [] (insertAll [] l) = .ok (marMap N (insertAll [] l)) := marshallMap_ok N _ [] hok.2 hok.1
  cases item
  · refine ⟨.obj (marMap N (insertAll [] l)), ?_, ?_⟩
    · show (match marshallMap N [] (insertAll [] l) with | .error e => _ | .ok r => _) = _
      rw [h1]
      rfl
    · refine ⟨spaces_closeMembers (spaces_append (spaces_nl p) (spaces_nl p)) _, marMap N l,
        typedMembers_gives p 1 _ (spaces_nl p) members l hl ha, ?_⟩
      show _ = Value.obj (insertAll [] (marMap N l))
      rw [insertAll_marMap]
  · refine ⟨.obj [(tItem, .obj (marMap N (insertAll [] l)))], ?_, ?_⟩
    · show (match marshallMap N [] (insertAll [] l) with | .error e => _ | .ok r => _) = _
      rw [h1]
      rfl
    · refine wrap_gives p 0 (name_str N _ (by decide)) ⟨spaces_closeMembers (spaces_append (spaces_nl p) (spaces_append (spaces_nl p) (spaces_ind p 1))) _,
        marMap N l, typedMembers_gives p 2 _ (spaces_append (spaces_nl p) (spaces_ind p 1)) members l hl ha, ?_⟩
      show _ = Value.obj (insertAll [] (marMap N l))
      rw [insertAll_marMap]

/-! ## `from_dynamodb` -/

/-- The text of a number that `serde_json` can read. -/
def Readable (N : Numbers ν) (body : Bytes) : Prop := Number body ∧ (N.parse body).isSome = true

/-- The result, if there is one. -/
def un (N : Numbers ν) (x : Value ν) : Value ν :=
  match unmarshall N x with
  | .ok y => y
  | .error _ => .null

theorem unmarshallMap_all : ∀ (m : List (Bytes × Value ν)) (acc : Map ν), (∀ e ∈ m, unmarshall N e.2 = .ok (un N e.2)) →
    unmarshallMap N acc m = .ok (insertAll acc (m.map fun e => (e.1, un N e.2)))
  | [], _, _ => rfl
  | (k, v) :: m, acc, h => by
    have hv := h _ List.mem_cons_self
    simp only at hv
    rw [unmarshallMap, hv]
    exact unmarshallMap_all m _ fun e he => h e (List.mem_cons_of_mem _ he)

theorem insert_mem {k : Bytes} {v : Value ν} : ∀ {m : Map ν} {e : Bytes × Value ν}, e ∈ m.insert k v → e ∈ m ∨ e = (k, v)
  | [], e, h => .inr (List.mem_singleton.1 h)
  | (k', v') :: m, e, h => by
    unfold Map.insert at h
    split at h
    · rename_i hk
      rcases List.mem_cons.1 h with h | h
      · exact .inr (by rw [h, hk])
      · exact .inl (List.mem_cons_of_mem _ h)
    · rcases List.mem_cons.1 h with h | h
      · exact .inl (by rw [h]; exact List.mem_cons_self)
      · exact (insert_mem h).imp (List.mem_cons_of_mem _) id

theorem insertAll_mem : ∀ {l : List (Bytes × Value ν)} {m : Map ν} {e : Bytes × Value ν}, e ∈ insertAll m l → e ∈ m ∨ e ∈ l
  | [], _, _, h => .inl h
  | (k, v) :: l, m, e, h => by
    rcases insertAll_mem (l := l) (m := m.insert k v) h with h | h
    · exact (insert_mem h).imp id fun h => by rw [h]; exact List.mem_cons_self
    · exact .inr (List.mem_cons_of_mem _ h)

/-- `from_dynamodb` on the entries of a document in which a key may occur more than once. -/
theorem unmarshall_entries {l : List (Bytes × Value ν)} (h : ∀ e ∈ l, unmarshall N e.2 = .ok (un N e.2)) :
    unmarshallMap N [] (insertAll [] l) = .ok (insertAll [] (l.map fun e => (e.1, un N e.2))) := by
  rw [unmarshallMap_all _ [] fun e he => (insertAll_mem he).elim (fun h => by cases h) (h e)]
  have h1 := insertAll_map (un N) l []
  rw [List.map_nil] at h1
  rw [← h1]
  have h2 : ((insertAll [] (l.map fun e => (e.1, un N e.2))).map (·.1)).Nodup := insertAll_nodup _ _ List.nodup_nil
  exact congrArg _ (insertAll_fresh _ [] h2)

theorem unwrap_gives {sp : Sp} {name : Bytes} {v : Val} {x : Value ν} (h : Stands N (sp.wrap name v) x) (hn : 92 ∉ name) :
    ∃ z, x = .obj [(name, z)] ∧ Stands N v z := by
  obtain ⟨_, l, ⟨_, _, _, _, key, z, xs, hk, hz, hxs, rfl⟩, rfl⟩ := h
  obtain rfl : xs = [] := hxs
  obtain rfl := str_same N hk hn
  exact ⟨z, rfl, hz⟩

theorem quoted_gives {body : Bytes} {x : Value ν} (h : AtomGives (reading N) (build N) (quoted body) x) : ∃ s, (reading N).str body s ∧ x = .str s := by
  generalize e : quoted body = tok at h
  cases h with
  | null => cases e
  | true => cases e
  | false => cases e
  | number _ h hn =>
    obtain ⟨c, t, h, hc⟩ := number_first h
    rw [← e, quoted] at h
    injection h with h
    subst h
    simp at hc
  | string b s h =>
    simp only [quoted, List.cons.injEq, true_and] at e
    obtain ⟨rfl, _⟩ := List.append_inj' e rfl
    exact ⟨s, h, rfl⟩

theorem bool_gives {b : Bool} {x : Value ν} (h : AtomGives (reading N) (build N) (boolText b) x) : x = .bool b := by
  generalize e : boolText b = tok at h
  cases h with
  | null => cases b <;> cases e
  | true => cases b with | false => cases e | true => rfl
  | false => cases b with | false => rfl | true => cases e
  | number _ h hn =>
    obtain ⟨c, t, h, hc⟩ := number_first h
    subst e
    cases b <;> (injection h with h; subst h; simp at hc)
  | string => cases b <;> cases e

/-- A set of strings. -/
theorem strings_gives (p : Bool) : ∀ (elems : List Elem) (l : List (Value ν)) (before : Bytes), Spaces before →
    (elemsJson elems).Gives (reading N) (build N) l → (elemsPlain p quoted before elems).Gives (reading N) (build N) l
  | [], l, _, _, h => h
  | e :: es, l, before, hb, h => by
    obtain ⟨_, _, x, xs, h1, h2, rfl⟩ := h
    exact ⟨hb, spaces_nil, x, xs, h1, strings_gives p es xs _ (spaces_nl p) h2, rfl⟩

theorem readable_gives {body : Bytes} (h : Readable N body) {s : Bytes} (hs : (reading N).str body s) :
    ∃ n, N.parse s = some n ∧ AtomGives (reading N) (build N) body (.num n) := by
  obtain rfl := str_same N hs (number_no_escape h.1)
  obtain ⟨n, hn⟩ := Option.isSome_iff_exists.1 h.2
  refine ⟨n, hn, ?_⟩
  have := AtomGives.number (R := reading N) (B := build N) s h.1 h.2
  rw [show (build N).num s = .num n by show (N.parse s).elim Value.null Value.num = _; rw [hn]; rfl] at this
  exact this

/-- A set of numbers. -/
theorem numbers_gives (p : Bool) : ∀ (elems : List Elem) (l : List (Value ν)) (before : Bytes), Spaces before →
    (elemsJson elems).Gives (reading N) (build N) l → (∀ e ∈ elems, Readable N e.body) →
    ∃ r, numbers N l = .ok r ∧ (elemsPlain p id before elems).Gives (reading N) (build N) r
  | [], l, _, _, h, _ => by
    obtain rfl : l = [] := h
    exact ⟨[], rfl, rfl⟩
  | e :: es, l, before, hb, h, hn => by
    obtain ⟨_, _, x, xs, h1, h2, rfl⟩ := h
    obtain ⟨s, hs, rfl⟩ := quoted_gives h1
    obtain ⟨n, h3, h4⟩ := readable_gives (hn e List.mem_cons_self) hs
    obtain ⟨r, h5, h6⟩ := numbers_gives p es xs (nl p) (spaces_nl p) h2 fun e he => hn e (List.mem_cons_of_mem _ he)
    refine ⟨.num n :: r, ?_, hb, spaces_nil, _, _, h4, h6, rfl⟩
    rw [numbers, h3]
    simp only
    rw [h5]

mutual
/-- What a value of DynamoDB JSON stands for is what the other converter makes of it. -/
theorem plain_gives (p : Bool) : ∀ (d : Nat) (v : DVal) (x : Value ν), Stands N v.json x → v.Numbers (Readable N) →
    unmarshall N x = .ok (un N x) ∧ Stands N (v.plain p d) (un N x)
  | d, .string sp binary body, x, h, _ => by
    obtain ⟨z, rfl, hz⟩ := unwrap_gives h (by cases binary <;> decide)
    have : unmarshall N (.obj [(if binary then [66] else [83], z)]) = .ok z := by cases binary <;> rfl
    have hu : un N (.obj [(if binary then [66] else [83], z)]) = z := by rw [un, this]
    rw [hu]
    exact ⟨this, hz⟩
  | d, .number sp body, x, h, hn => by
    obtain ⟨z, rfl, hz⟩ := unwrap_gives h (by decide)
    obtain ⟨s, hs, rfl⟩ := quoted_gives hz
    obtain ⟨n, h3, h4⟩ := readable_gives hn hs
    have : unmarshall N (.obj [([78], .str s)]) = .ok (.num n) := by
      show (match N.parse s with | none => _ | some n => _) = _
      rw [h3]
    have hu : un N (.obj [([78], .str s)]) = .num n := by rw [un, this]
    rw [hu]
    exact ⟨this, h4⟩
  | d, .bool sp b, x, h, _ => by
    obtain ⟨z, rfl, hz⟩ := unwrap_gives h (by decide)
    exact ⟨rfl, hz⟩
  | d, .null sp, x, h, _ => by
    obtain ⟨z, rfl, hz⟩ := unwrap_gives h (by decide)
    exact ⟨rfl, .null⟩
  | d, .strings sp binary w elems, x, h, _ => by
    obtain ⟨z, rfl, hz⟩ := unwrap_gives h (by cases binary <;> decide)
    have : unmarshall N (.obj [(if binary then [66, 83] else [83, 83], z)]) = .ok z := by cases binary <;> rfl
    have hu : un N (.obj [(if binary then [66, 83] else [83, 83], z)]) = z := by rw [un, this]
    rw [hu]
    obtain ⟨_, l, hl, rfl⟩ := hz
    exact ⟨this, spaces_nil, l, strings_gives p elems l [] spaces_nil hl, rfl⟩
  | d, .numbers sp w elems, x, h, hn => by
    obtain ⟨z, rfl, hz⟩ := unwrap_gives h (by decide)
    obtain ⟨_, l, hl, rfl⟩ := hz
    obtain ⟨r, h1, h2⟩ := numbers_gives p elems l [] spaces_nil hl hn
    have : unmarshall N (.obj [([78, 83], .arr l)]) = .ok (.arr r) := by
      show (match numbers N l with | .error e => _ | .ok r => _) = _
      rw [h1]
    have hu : un N (.obj [([78, 83], .arr l)]) = .arr r := by rw [un, this]
    show unmarshall N (.obj [([78, 83], .arr l)]) = .ok (un N (.obj [([78, 83], .arr l)])) ∧ Stands N _ (un N (.obj [([78, 83], .arr l)]))
    rw [hu]
    exact ⟨this, spaces_nil, r, h2, rfl⟩
  | d, .list sp w items, x, h, hn => by
    obtain ⟨z, rfl, hz⟩ := unwrap_gives h (by decide)
    obtain ⟨_, l, hl, rfl⟩ := hz
    obtain ⟨h1, h2⟩ := plainItems_gives p d items l [] spaces_nil hl hn
    have : unmarshall N (.obj [([76], .arr l)]) = .ok (.arr (l.map (un N))) := by
      show (match unmarshallList N l with | .error e => _ | .ok r => _) = _
      rw [h1]
    have hu : un N (.obj [([76], .arr l)]) = .arr (l.map (un N)) := by rw [un, this]
    show unmarshall N (.obj [([76], .arr l)]) = .ok (un N (.obj [([76], .arr l)])) ∧ Stands N _ (un N (.obj [([76], .arr l)]))
    rw [hu]
    exact ⟨this, spaces_nil, _, h2, rfl⟩
  | d, .map sp w members, x, h, hn => by
    obtain ⟨z, rfl, hz⟩ := unwrap_gives h (by decide)
    obtain ⟨_, l, hl, rfl⟩ := hz
    obtain ⟨h1, h2⟩ := plainMembers_gives p (d + 1) members l (nl p ++ ind p d) (spaces_append (spaces_nl p) (spaces_ind p d)) hl hn
    have : unmarshall N (.obj [([77], .obj (insertAll [] l))]) = .ok (.obj (insertAll [] (l.map fun e => (e.1, un N e.2)))) := by
      show (match unmarshallMap N [] (insertAll [] l) with | .error e => _ | .ok r => _) = _
      rw [unmarshall_entries h1]
    have hu : un N (.obj [([77], .obj (insertAll [] l))]) = .obj (insertAll [] (l.map fun e => (e.1, un N e.2))) := by rw [un, this]
    show unmarshall N (.obj [([77], .obj (insertAll [] l))]) = .ok (un N (.obj [([77], .obj (insertAll [] l))])) ∧ Stands N _ (un N (.obj [([77], .obj (insertAll [] l))]))
    rw [hu]
    exact ⟨this, spaces_close (spaces_append (spaces_nl p) (spaces_append (spaces_nl p) (spaces_ind p d))) _, _, h2, rfl⟩
theorem plainItems_gives (p : Bool) : ∀ (d : Nat) (is : DItems) (l : List (Value ν)) (before : Bytes), Spaces before →
    is.json.Gives (reading N) (build N) l → is.Numbers (Readable N) →
    unmarshallList N l = .ok (l.map (un N)) ∧ (is.plain p d before).Gives (reading N) (build N) (l.map (un N))
  | d, .nil, l, _, _, h, _ => by
    obtain rfl : l = [] := h
    exact ⟨rfl, rfl⟩
  | d, .cons _ v _ more, l, before, hb, h, hn => by
    obtain ⟨_, _, x, xs, h1, h2, rfl⟩ := h
    obtain ⟨h3, h4⟩ := plain_gives p d v x h1 hn.1
    obtain ⟨h5, h6⟩ := plainItems_gives p d more xs (nl p) (spaces_nl p) h2 hn.2
    refine ⟨?_, hb, spaces_nil, _, _, h4, h6, rfl⟩
    rw [unmarshallList, h3]
    simp only
    rw [h5]
    rfl
theorem plainMembers_gives (p : Bool) : ∀ (d : Nat) (ms : DMembers) (l : List (Bytes × Value ν)) (close : Bytes), Spaces close →
    ms.json.Gives (reading N) (build N) l → ms.Numbers (Readable N) →
    (∀ e ∈ l, unmarshall N e.2 = .ok (un N e.2)) ∧ (ms.plain p d close).Gives (reading N) (build N) (l.map fun e => (e.1, un N e.2))
  | d, .nil, l, _, _, h, _ => by
    obtain rfl : l = [] := h
    exact ⟨nofun, rfl⟩
  | d, .cons _ k _ _ v _ more, l, close, hc, h, hn => by
    obtain ⟨_, _, _, _, key, x, xs, hk, h1, h2, rfl⟩ := h
    obtain ⟨h3, h4⟩ := plain_gives p d v x h1 hn.1
    obtain ⟨h5, h6⟩ := plainMembers_gives p d more xs close hc h2 hn.2
    refine ⟨?_, spaces_append (spaces_nl p) (spaces_ind p d), spaces_nil, spaces_nil, spaces_close hc _, key, _, _, hk, h4, h6, rfl⟩
    intro e he
    rcases List.mem_cons.1 he with rfl | he
    · exact h3
    · exact h5 e he
end

/-- The keys of the entries are what the keys of the members stand for. -/
theorem members_keys : ∀ {ms : DMembers} {l : List (Bytes × Value ν)}, ms.json.Gives (reading N) (build N) l →
    ∀ e ∈ l, ∃ k ∈ ms.keys, (reading N).str k e.1
  | .nil, l, h => by
    obtain rfl : l = [] := h
    exact nofun
  | .cons _ k _ _ _ _ more, l, h => by
    obtain ⟨_, _, _, _, key, x, xs, hk, _, h2, rfl⟩ := h
    intro e he
    rcases List.mem_cons.1 he with rfl | he
    · exact ⟨k, List.mem_cons_self, hk⟩
    · obtain ⟨k', h1, h2⟩ := members_keys h2 e he
      exact ⟨k', List.mem_cons_of_mem _ h1, h2⟩

/-- In a document without the wrapper no key stands for `Item`, not even one with escapes. -/
def NoItem (N : Numbers ν) : DDoc → Prop
  | .bare _ members => ∀ k ∈ members.keys, ¬ (reading N).str k tItem
  | .item _ _ _ => True

/-- The right output of `convert_ddb_to_normal` stands for what `from_dynamodb` returns. -/
theorem plainDoc_gives (p : Bool) (D : DDoc) (x : Value ν) (h : Stands N D.json x) (hn : D.members.Numbers (Readable N)) (hi : NoItem N D) :
    ∃ y, fromDynamodb N x = .ok y ∧ Stands N (D.plain p) y := by
  cases D with
  | bare w members =>
    obtain ⟨_, l, hl, rfl⟩ := h
    obtain ⟨h1, h2⟩ := plainMembers_gives p 1 members l (nl p) (spaces_nl p) hl hn
    refine ⟨.obj (insertAll [] (l.map fun e => (e.1, un N e.2))), ?_, spaces_close (spaces_append (spaces_nl p) (spaces_nl p)) _, _, h2, rfl⟩
    show (match unwrapItem (insertAll [] l) with | .error e => _ | .ok r => _) = _
    rw [unwrap_bare]
    · show (match unmarshallMap N [] (insertAll [] l) with | .error e => _ | .ok r => _) = _
      rw [unmarshall_entries h1]
    · intro v e
      have : (tItem, v) ∈ l := by
        have : (tItem, v) ∈ insertAll [] l := by rw [e]; exact List.mem_cons_self
        rcases insertAll_mem this with h | h
        · cases h
        · exact h
      obtain ⟨k, hk, hs⟩ := members_keys hl _ this
      exact hi k hk hs
  | item sp w members =>
    obtain ⟨z, rfl, hz⟩ := unwrap_gives h (by decide)
    obtain ⟨_, l, hl, rfl⟩ := hz
    obtain ⟨h1, h2⟩ := plainMembers_gives p 1 members l (nl p) (spaces_nl p) hl hn
    refine ⟨.obj (insertAll [] (l.map fun e => (e.1, un N e.2))), ?_, spaces_close (spaces_append (spaces_nl p) (spaces_nl p)) _, _, h2, rfl⟩
    show (match unmarshallMap N [] (insertAll [] l) with | .error e => _ | .ok r => _) = _
    rw [unmarshall_entries h1]

/-! ## A document stands for one value -/

theorem str_unique {body s s' : Bytes} (h : (reading N).str body s) (h' : (reading N).str body s') : s = s' := by
  obtain ⟨_, h1, rfl⟩ := h
  obtain ⟨_, h2, rfl⟩ := h'
  have e := (knownStr_body h1 34 []).symm.trans (knownStr_body h2 34 [])
  simp only [Prod.mk.injEq, true_and, Except.ok.injEq] at e
  exact e

theorem atom_one {tok : Bytes} {x y : Value ν} (h : AtomGives (reading N) (build N) tok x) (h' : AtomGives (reading N) (build N) tok y) : x = y := by
  cases h with
  | null =>
    cases h' with
    | null => rfl
    | number _ h => obtain ⟨c, t, e, hc⟩ := number_first h; injection e with e; subst e; simp at hc
  | true =>
    cases h' with
    | true => rfl
    | number _ h => obtain ⟨c, t, e, hc⟩ := number_first h; injection e with e; subst e; simp at hc
  | false =>
    cases h' with
    | false => rfl
    | number _ h => obtain ⟨c, t, e, hc⟩ := number_first h; injection e with e; subst e; simp at hc
  | number _ h hn =>
    obtain ⟨c, t, rfl, hc⟩ := number_first h
    cases h' with
    | null => simp at hc
    | true => simp at hc
    | false => simp at hc
    | number => rfl
    | string => simp at hc
  | string body s hs =>
    obtain ⟨s', hs', rfl⟩ := quoted_gives (body := body) h'
    exact congrArg Value.str (str_unique hs hs')

mutual
theorem stands_one : ∀ {v : Val} {x y : Value ν}, Stands N v x → Stands N v y → x = y
  | .atom _, _, _, h, h' => atom_one h h'
  | .arr _ is, _, _, h, h' => by
    obtain ⟨_, l, hl, rfl⟩ := h
    obtain ⟨_, l', hl', rfl⟩ := h'
    rw [items_one hl hl']
  | .obj _ ms, _, _, h, h' => by
    obtain ⟨_, l, hl, rfl⟩ := h
    obtain ⟨_, l', hl', rfl⟩ := h'
    rw [members_one hl hl']
theorem items_one : ∀ {is : Items} {l l' : List (Value ν)}, is.Gives (reading N) (build N) l → is.Gives (reading N) (build N) l' → l = l'
  | .nil, _, _, h, h' => h.trans h'.symm
  | .cons _ _ _ _, _, _, h, h' => by
    obtain ⟨_, _, x, xs, h1, h2, rfl⟩ := h
    obtain ⟨_, _, y, ys, k1, k2, rfl⟩ := h'
    rw [stands_one h1 k1, items_one h2 k2]
theorem members_one : ∀ {ms : Members} {l l' : List (Bytes × Value ν)}, ms.Gives (reading N) (build N) l → ms.Gives (reading N) (build N) l' → l = l'
  | .nil, _, _, h, h' => h.trans h'.symm
  | .cons _ _ _ _ _ _ _, _, _, h, h' => by
    obtain ⟨_, _, _, _, key, x, xs, h0, h1, h2, rfl⟩ := h
    obtain ⟨_, _, _, _, key', y, ys, k0, k1, k2, rfl⟩ := h'
    rw [str_unique h0 k0, stands_one h1 k1, members_one h2 k2]
end

/-! ## C85 -/

/-- **C85, partial**, `convert_normal_to_ddb` and `to_dynamodb`. For a stream of objects, in any chunks, and a writer that may fail: if
`convert_normal_to_ddb` returns `Ok`, then it has written one document for each object, and this document stands for the value that `to_dynamodb`
returns for the object. `hn`: `serde_json` writes the numbers as it has read them; otherwise see `C85_number`. The other conditions are those of
C81; the full statement is without all of them. -/
theorem C85_to_ddb_partial (turns F : Nat) (reader : Reader) (d : Dest) (rb cb : Bytes) (pretty unbuffered item : Bool) (ds : Docs) (tail : Bytes)
    (hu : Scan.Usable F (.new reader rb)) (hcl : reader.Clean) (hr : reader.pending = Docs.text ds tail) (hj : Docs.Json ds tail) (ho : Objects ds)
    (hk : ∀ x ∈ ds, x.2.Keys Usual) (ha : ∀ x ∈ ds, Atoms Short x.2) (hn : ∀ x ∈ ds, Atoms (Canon N) x.2)
    (h : (convertNormalToDdb turns F reader d rb cb pretty unbuffered item).2 = .ok) :
    ∃ f : Val → Val, (convertNormalToDdb turns F reader d rb cb pretty unbuffered item).1.d.w.out = d.w.out ++ lines (ds.map fun x => f x.2) ∧
      ∀ v ∈ ds, ∀ x, Stands N v.2 x → ∃ y, toDynamodb N item x = .ok y ∧ Stands N (f v.2) y := by
  refine ⟨typedDoc item pretty, ?_, ?_⟩
  · rw [← typedDocs_lines]
    exact C81_output_partial turns F reader d rb cb pretty unbuffered item ds tail hu hcl hr hj (by
      intro x hx
      obtain ⟨w, ms, e⟩ := ho x hx
      rw [e]
      trivial) hk ha (objects_calm ho) h
  · intro v hv x hx
    obtain ⟨w, ms, e⟩ := ho v hv
    have hn := hn v hv
    rw [e] at hx hn ⊢
    exact typedDoc_gives item pretty w ms x hx hn

/-- **C85, partial**, `convert_ddb_to_normal` and `from_dynamodb`. For a stream of items in DynamoDB JSON, in any chunks, with a reader and a
writer that may fail: if `convert_ddb_to_normal` returns `Ok`, then it has written one document for each item, and this document stands for the
value that `from_dynamodb` returns for the item. `hnum`: the numbers are numbers, otherwise see `C85_not_a_number`. `hi`: no key that is written with
escapes stands for `Item`. The other conditions are those of C80; the full statement is without all of them. -/
theorem C85_from_ddb_partial (turns F : Nat) (reader : Reader) (d : Dest) (rb cb : Bytes) (pretty unbuffered : Bool) (D : DDocs) (tail : Bytes)
    (hu : Scan.Usable F (.new reader rb)) (hr : reader.pending = Docs.text D.json tail) (hj : Docs.Json D.json tail)
    (hk : ∀ x ∈ D, x.2.members.Names (· ≠ Scan.nameArray)) (ho : ∀ x ∈ D, x.2.members.Orderly) (hw : ∀ x ∈ D, x.2.Reads true)
    (hnum : ∀ x ∈ D, x.2.members.Numbers (Readable N)) (hi : ∀ x ∈ D, NoItem N x.2)
    (h : (convertDdbToNormal turns F reader d rb cb pretty unbuffered true).2 = .ok) :
    ∃ f : DDoc → Val, (convertDdbToNormal turns F reader d rb cb pretty unbuffered true).1.d.w.out = d.w.out ++ lines (D.map fun x => f x.2) ∧
      ∀ v ∈ D, ∀ x, Stands N v.2.json x → ∃ y, fromDynamodb N x = .ok y ∧ Stands N (f v.2) y := by
  refine ⟨DDoc.plain pretty, ?_, ?_⟩
  · rw [← plain_lines]
    exact C80_output_partial turns F reader d rb cb pretty unbuffered true D tail hu hr hj hk ho hw h
  · intro v hv x hx
    exact plainDoc_gives pretty v.2 x hx (hnum v hv) (hi v hv)

/-- `{"a":tok}` -/
def oneField (tok : Bytes) : Val := .obj [] (.cons [] [97] [] [] (.atom tok) [] .nil)

/-- **C85 is false** for a number that `serde_json` does not write as it has read it (like `1e2`, which it writes as `100.0`): `to_dynamodb` changes
its text, and the output of `convert_normal_to_ddb` does not stand for the same value. -/
theorem C85_number (tok : Bytes) (n : ν) (ht : Number tok) (hp : N.parse tok = some n) (hn : N.print n ≠ tok) (p : Bool) :
    ∃ x y z, Stands N (oneField tok) x ∧ toDynamodb N false x = .ok y ∧ Stands N (typedDoc false p (oneField tok)) z ∧ y ≠ z := by
  have ha : AtomGives (reading N) (build N) tok (.num n) := by
    have := AtomGives.number (R := reading N) (B := build N) tok ht (by show (N.parse tok).isSome = true; rw [hp]; rfl)
    rwa [show (build N).num tok = .num n by show (N.parse tok).elim Value.null Value.num = _; rw [hp]; rfl] at this
  refine ⟨.obj [([97], .num n)], .obj [([97], .obj [(tN, .str (N.print n))])], .obj [([97], .obj [(tN, .str tok)])],
    ⟨spaces_nil, _, ⟨spaces_nil, spaces_nil, spaces_nil, spaces_nil, [97], _, [], name_str N _ (by decide), ha, rfl, rfl⟩, rfl⟩, rfl, ?_, ?_⟩
  · refine ⟨spaces_nil, [([97], .obj [(tN, .str tok)])], ⟨spaces_append (spaces_nl p) (spaces_ind p 1), spaces_nil, spaces_nil, spaces_nl p, [97], _, [],
      name_str N _ (by decide), ?_, rfl, rfl⟩, rfl⟩
    show Stands N (wrap p 1 (atomType tok).1 (.atom (atomType tok).2)) _
    rw [atomType_number ht]
    exact wrap_gives p 1 (name_str N [78] (by decide)) (.string tok tok (number_str N ht))
  · intro e
    simp only [Value.obj.injEq, List.cons.injEq, Prod.mk.injEq, Value.str.injEq, and_true, true_and] at e
    exact hn e

/-- **C85 is false** if the text of a number is not a number: `convert_ddb_to_normal` returns `Ok` for `{"a":{"N":"x"}}` (`C53_not_a_number`),
`from_dynamodb` does not. -/
theorem C85_not_a_number (hp : N.parse [120] = none) : ∃ x, (∀ d ∈ exNaN, Stands N d.2.json x) ∧ fromDynamodb N x = .error .number := by
  refine ⟨.obj [([97], .obj [([78], .str [120])])], ?_, ?_⟩
  · intro d hd
    simp only [exNaN, List.mem_cons, List.not_mem_nil, or_false] at hd
    subst hd
    exact ⟨spaces_nil, _, ⟨spaces_nil, spaces_nil, spaces_nil, spaces_nil, [97], _, [], name_str N _ (by decide),
      ⟨spaces_nil, _, ⟨spaces_nil, spaces_nil, spaces_nil, spaces_nil, [78], _, [], name_str N _ (by decide), .string [120] [120] (name_str N _ (by decide)), rfl, rfl⟩,
        rfl⟩, rfl, rfl⟩, rfl⟩
  · show (match (match (match N.parse [120] with | none => _ | some n => _ : Except Fault (Value ν)) with
      | .error e => _ | .ok x => _ : Except Fault (Map ν)) with | .error e => _ | .ok r => _) = _
    rw [hp]

/-- The hypotheses of `C85_to_ddb_partial`, for `{"a":[1],"b":null} {}`, and the value that the first document stands for. -/
example : Scan.Usable 200 (.new (whole (Docs.text exTrip [])) (List.replicate 40 0)) ∧ (whole (Docs.text exTrip [])).Clean ∧
    (whole (Docs.text exTrip [])).pending = Docs.text exTrip [] ∧ Docs.Json exTrip [] ∧ Objects exTrip ∧ (∀ d ∈ exTrip, Atoms (Canon exNumbers) d.2) ∧
    (convertNormalToDdb 40 200 (whole (Docs.text exTrip [])) ⟨⟨[], []⟩, []⟩ (List.replicate 40 0) (List.replicate 200 0) false false true).2 = .ok ∧
    Stands exNumbers exSpec (.obj [([97], .arr [.num [49]]), ([98], .null)]) ∧
    toDynamodb exNumbers true (.obj [([97], .arr [.num [49]]), ([98], .null)]) =
      .ok (.obj [(tItem, .obj [([97], .obj [(tL, .arr [.obj [(tN, .str [49])]])]), ([98], .obj [(tNull, .bool true)])])]) := by
  have hc : ∀ tok, Canon exNumbers tok := fun tok _ n h => by
    have : some tok = some n := h
    injection this with this
    exact this.symm
  refine ⟨Scan.usable_new _ _ _ (by decide) (by decide +kernel), by simp [whole, exTrip, exSpec, Docs.text, Val.text, Reader.Clean], by decide +kernel,
    Docs.Meets.json (show Docs.Meets (Scan.rules Scan.wholeMode 20) exTrip [] from ⟨spaces_nil, plainVal_ok _ (by decide +kernel), head_whole _ _ _, trivial, spaces_one,
      plainVal_ok _ (by decide +kernel), head_whole _ _ _, trivial, spaces_nil⟩), ?_, ?_, by decide +kernel, ?_, rfl⟩
  · intro d hd
    simp only [exTrip, List.mem_cons, List.not_mem_nil, or_false] at hd
    rcases hd with rfl | rfl <;> exact ⟨_, _, rfl⟩
  · intro d hd
    simp only [exTrip, List.mem_cons, List.not_mem_nil, or_false] at hd
    rcases hd with rfl | rfl
    · exact ⟨⟨hc _, trivial⟩, hc _, trivial⟩
    · trivial
  · exact ⟨spaces_nil, [([97], .arr [.num [49]]), ([98], .null)], ⟨spaces_nil, spaces_nil, spaces_nil, spaces_nil, [97], .arr [.num [49]], [([98], .null)],
      name_str _ _ (by decide), ⟨spaces_nil, [.num [49]], ⟨spaces_nil, spaces_nil, .num [49], [], .number [49] Scan.number_one rfl, rfl, rfl⟩, rfl⟩,
      ⟨spaces_nil, spaces_nil, spaces_nil, spaces_nil, [98], .null, [], name_str _ _ (by decide), .null, rfl, rfl⟩, rfl⟩, rfl⟩

/-- The hypotheses of `C85_from_ddb_partial` that are not among those of `C80_output_partial`, for the items of the example there, and the value that
the second item stands for. -/
example : (∀ d ∈ exItems, d.2.members.Numbers (Readable exNumbers)) ∧ (∀ d ∈ exItems, NoItem exNumbers d.2) ∧
    (∃ d ∈ exItems, Stands exNumbers d.2.json (.obj [(tItem, .obj [([101], .obj [([66], .str [120])])])])) ∧
    fromDynamodb exNumbers (.obj [(tItem, .obj [([101], .obj [([66], .str [120])])])]) = .ok (.obj [([101], .str [120])]) := by
  refine ⟨?_, ?_, ⟨_, List.mem_cons_of_mem _ (List.mem_cons_self ..), ?_⟩, rfl⟩
  · intro d hd
    simp only [exItems, List.mem_cons, List.not_mem_nil, or_false] at hd
    rcases hd with rfl | rfl
    · simp [exDdb, DDoc.members, DMembers.Numbers, DVal.Numbers, DItems.Numbers, Readable, Scan.number_one, exNumbers]
    · simp [DDoc.members, DMembers.Numbers, DVal.Numbers]
  · intro d hd
    simp only [exItems, List.mem_cons, List.not_mem_nil, or_false] at hd
    rcases hd with rfl | rfl
    · intro k hk h
      simp only [DMembers.keys, List.mem_cons, List.not_mem_nil, or_false] at hk
      have h1 : (reading exNumbers).str k k := by rcases hk with rfl | rfl <;> exact name_str _ _ (by decide)
      have := str_unique h h1
      rcases hk with rfl | rfl <;> exact absurd this (by decide)
    · trivial
  · exact ⟨spaces_nil, _, ⟨spaces_nil, spaces_nil, spaces_nil, spaces_nil, tItem, _, [], name_str _ _ (by decide),
      ⟨spaces_nil, _, ⟨spaces_nil, spaces_nil, spaces_nil, spaces_nil, [101], _, [], name_str _ _ (by decide),
        ⟨spaces_nil, _, ⟨spaces_nil, spaces_nil, spaces_nil, spaces_nil, [66], _, [], name_str _ _ (by decide),
          .string [120] [120] (name_str _ _ (by decide)), rfl, rfl⟩, rfl⟩, rfl, rfl⟩, rfl⟩, rfl, rfl⟩, rfl⟩

/-- The hypotheses of `C85_number`: numbers that are written with `.0` at the end. Those of `C85_not_a_number`: texts without the digit
`1` are refused. -/
example : (∃ N : Numbers Bytes, Number [49] ∧ N.parse [49] = some [49] ∧ N.print [49] ≠ [49]) ∧
    ∃ N : Numbers Bytes, N.parse [120] = none ∧ N.parse [49] = some [49] :=
  ⟨⟨⟨some, fun n => n ++ [46, 48]⟩, Scan.number_one, rfl, by decide⟩, ⟨⟨fun t => if 49 ∈ t then some t else none, id⟩, by decide, by decide⟩⟩

end Verif.Bench
