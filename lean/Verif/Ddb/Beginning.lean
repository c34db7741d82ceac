import Verif.Scan.PartOut
import Verif.Ddb.NormalReturns

/-!
# What `convert_ddb_to_normal` makes of the beginning of a stream of items
-/

namespace Verif.Ddb

open Verif.RJiter
open Verif.RJiter.Jiter
open Verif.Scan

/-- The beginning of a string. -/
theorem string_body {num str : Bytes → Prop} {key : Bytes → Bytes → Prop} {head : Bytes → Bytes → Bytes → Bytes → Prop} {v : Val} {y c s : Bytes}
    (hv : v.Meets (.json num str key head)) (hy : Skim true y) (e : 34 :: (y ++ c) = v.text ++ s) : v.text.head? = some 34 ∧ y <+: v.text.tail.dropLast := by
  obtain ⟨d, r, ev, hd, _, _, h3⟩ := hv.first
  have hd34 : d = 34 := by rw [ev] at e; injection e with e _; exact e.symm
  subst hd34
  obtain ⟨tok, rfl⟩ := h3 (by decide) (by decide)
  cases (show IsAtom num str tok from hv) with
  | number _ hn _ => exact (number_not (x := s) (x' := y ++ c) (t := []) (c := 34) hn (by decide) e.symm).elim
  | null => simp [Val.text] at e
  | true => simp [Val.text] at e
  | false => simp [Val.text] at e
  | string body hb _ =>
    simp only [Val.text, List.cons_append, List.cons.injEq, true_and, List.append_assoc] at e
    obtain ⟨z', hz'⟩ := hy.start hb.tidy e
    exact ⟨rfl, by simp only [Val.text, List.tail_cons, List.dropLast_concat]; exact ⟨z', hz'.symm⟩⟩

namespace ToNormal

/-- What was written. -/
abbrev written (b : ToNormal) : Bytes := b.d.w.out

theorem op_fst (x : Step) (o : StreamOp) : (x.op o).1 = x.1 := by
  rcases x with ⟨b, _ | m⟩ <;> rfl

theorem Smooth.adds {k : ToNormal → Step} (h : Smooth k) (b : ToNormal) : b.written <+: (k b).1.written := (h b).2

/-! ## The callbacks only append -/

/-- A string is written behind what comes first. -/
theorem string_adds (q : Bool) (body : Bytes) (b : ToNormal) {b1 : ToNormal} (h : b.writeComma.bind (quote q "writing opening quote") = (b1, none))
    {y : Bytes} (hy : y <+: body) : b1.written ++ y <+: (b.string q body).1.written := by
  unfold string
  rw [h]
  have h1 := (smooth_flushLong.bind ((smooth_quote q "writing closing quote").bind (smooth_setf (f := fun b => { b with comma := true }) (by intro _; rfl)
    (by intro _; rfl)))).adds ({ b1 with d := { b1.d with w := ⟨b1.d.w.out ++ body, []⟩ } } : ToNormal)
  exact (prefix_mid _ hy).trans h1

theorem writeComma_adds (q : Bool) (b : ToNormal) : b.written <+: (b.writeComma.bind (quote q "writing opening quote")).1.written :=
  (smooth_writeComma.bind (smooth_quote q _)).adds b

theorem stringAt_adds (q : Bool) (v : Val) (b : ToNormal) : b.written <+: (stringAt q v b).1.written := by
  unfold stringAt
  split
  · rw [op_fst]
    have h := writeComma_adds q b
    rcases hx : b.writeComma.bind (quote q "writing opening quote") with ⟨b1, _ | m⟩
    · rw [hx] at h
      exact h.trans ((List.prefix_append _ []).trans (string_adds q _ b hx List.nil_prefix))
    · rw [hx] at h
      unfold string
      rw [hx]
      exact h
  · exact List.prefix_rfl

theorem bool_smooth (bytes : Bytes) (name : String) :
    Smooth fun b => (b.put bytes name).bind (set fun b => { b with comma := true, type := none }) :=
  (smooth_put _ _).bind (smooth_setf (by intro _; rfl) (by intro _; rfl))

theorem boolAt_adds (o : Byte → Bytes × Option String) (n : String) (v : Val) (b : ToNormal) : b.written <+: (boolAt o n v b).1.written := by
  unfold boolAt
  rcases o (v.text.headD 0) with ⟨bytes, _ | m⟩
  · simp only [op_fst]
    exact (smooth_writeComma.bind (bool_smooth bytes n)).adds b
  · exact List.prefix_rfl

theorem typeAt_adds (v : Val) (b : ToNormal) : b.written <+: (typeAt v b).1.written := by
  unfold typeAt
  cases b.field with
  | none => exact List.prefix_rfl
  | some key =>
    simp only
    split
    · exact stringAt_adds true v b
    · split
      · exact stringAt_adds false v b
      · split
        · exact boolAt_adds _ _ v b
        · split
          · exact boolAt_adds _ _ v b
          · split
            · rw [op_fst]; exact (smooth_setBegin _ _).adds b
            · split
              · rw [op_fst]; exact (smooth_setBegin _ _).adds b
              · split
                · rw [op_fst]; exact smooth_listBegin.adds b
                · split
                  · rw [op_fst]; exact smooth_mapBegin.adds b
                  · exact List.prefix_rfl

theorem grows : Grows handler written := by
  constructor
  · intro p path v b
    simp only [handler]
    cases p with
    | object =>
      simp only
      split
      · rw [op_fst]; exact smooth_rootObjectBegin.adds b
      · cases b.phase with
        | value => exact List.prefix_rfl
        | typeKey => simp only; split <;> exact List.prefix_rfl
        | field => exact List.prefix_rfl
        | consumed => simp only; split <;> exact List.prefix_rfl
    | none =>
      rcases path with _ | ⟨key, above⟩
      · exact List.prefix_rfl
      · simp only
        rcases hph : b.phase with _ | _ | _ | _
        case value =>
          simp only
          split
          · exact typeAt_adds v ({ b with field := some key, phase := .value } : ToNormal)
          · exact List.prefix_rfl
        case typeKey => exact typeAt_adds v ({ b with field := some key, phase := .typeKey } : ToNormal)
        case field =>
          simp only
          split
          · exact List.prefix_rfl
          · rw [op_fst]; exact smooth_fieldKey.adds ({ b with field := some key, phase := .field } : ToNormal)
        case consumed => simp only [op_fst]; exact smooth_fieldKey.adds ({ b with field := some key, phase := .consumed } : ToNormal)
    | array =>
      simp only
      rcases b.type with _ | _ | _ | _ | _ <;> exact List.prefix_rfl
    | atom =>
      simp only
      split
      · exact List.prefix_rfl
      · split
        · split
          · exact stringAt_adds true v b
          · exact stringAt_adds false v b
        · exact List.prefix_rfl
  · intro p path b
    simp only [handler]
    obtain ⟨_, h1, h2⟩ := findEnd_smooth p ⟨path, path.length⟩ b
    rcases hf : findEnd p ⟨path, path.length⟩ b with ⟨b', _ | a⟩ <;> rw [hf] at h1 h2
    · rw [show b' = b from h1]
      exact List.prefix_rfl
    · rw [show b' = b from h1]
      exact (h2 a rfl).adds b

theorem grows_guarded : Grows guarded written := by
  constructor
  · intro p path v b
    by_cases hK : Well sound b
    · rw [guarded, guardH_start hK]; exact grows.start p path v b
    · simp only [guarded, guardH, hK, if_false]; exact List.prefix_rfl
  · intro p path b
    by_cases hK : Well sound b
    · rw [guarded, guardH_finish hK]; exact grows.finish p path b
    · simp only [guarded, guardH, hK, if_false]; exact List.prefix_rfl

/-! ## No numbers -/

theorem stringAt_number (q : Bool) {tok : Bytes} (h : Number tok) (b : ToNormal) : ∃ m, (stringAt q (.atom tok) b).2 = .error m := by
  unfold stringAt
  split
  · rename_i h34
    cases tok with
    | nil => simp [Val.text] at h34
    | cons c r =>
      simp only [Val.text, List.head?_cons, Option.some.injEq] at h34
      subst h34
      exact (number_not (x := []) (x' := r) (t := []) (c := 34) h (by decide) (by simp)).elim
  · exact ⟨_, rfl⟩

theorem boolAt_number {o : Byte → Bytes × Option String} (ho : ∀ c, (o c).2 = none → c = 116 ∨ c = 102) (n : String) {tok : Bytes} (h : Number tok)
    (b : ToNormal) : ∃ m, (boolAt o n (.atom tok) b).2 = .error m := by
  unfold boolAt
  cases tok with
  | nil => exact (number_not (x := [34]) (x' := []) (t := []) (c := 34) h (by decide) (by simp)).elim
  | cons c r =>
    have ho := ho c
    simp only [Val.text, List.headD_cons]
    revert ho
    rcases o c with ⟨bytes, _ | m⟩
    · intro ho
      rcases ho rfl with rfl | rfl
      · exact (number_not (x := []) (x' := r) (t := []) (c := 116) h (by decide) (by simp)).elim
      · exact (number_not (x := []) (x' := r) (t := []) (c := 102) h (by decide) (by simp)).elim
    · exact fun _ => ⟨_, rfl⟩

theorem boolOutput_word (c : Byte) (h : (boolOutput c).2 = none) : c = 116 ∨ c = 102 := by
  unfold boolOutput at h
  split at h
  · exact .inl ‹_›
  · split at h
    · exact .inr ‹_›
    · cases h

theorem nullOutput_word (c : Byte) (h : (nullOutput c).2 = none) : c = 116 ∨ c = 102 := by
  unfold nullOutput at h
  split at h
  · exact .inl ‹_›
  · cases h

theorem op_goes (x : Step) : (x.op .none).2 ≠ .valueIsConsumed := by
  rcases x with ⟨b, _ | m⟩ <;> exact nofun

theorem typeAt_number {tok : Bytes} (h : Number tok) (b : ToNormal) : (typeAt (.atom tok) b).2 ≠ .valueIsConsumed := by
  have hs : ∀ q, (stringAt q (.atom tok) b).2 ≠ .valueIsConsumed := fun q => by
    obtain ⟨m, hm⟩ := stringAt_number q h b
    rw [hm]; exact nofun
  have hb : ∀ {o : Byte → Bytes × Option String} (_ : ∀ c, (o c).2 = none → c = 116 ∨ c = 102) (n : String),
      (boolAt o n (.atom tok) b).2 ≠ .valueIsConsumed := fun ho n => by
    obtain ⟨m, hm⟩ := boolAt_number ho n h b
    rw [hm]; exact nofun
  unfold typeAt
  cases b.field with
  | none => exact nofun
  | some key =>
    simp only
    split
    · exact hs true
    · split
      · exact hs false
      · split
        · exact hb boolOutput_word _
        · split
          · exact hb nullOutput_word _
          · split
            · exact op_goes _
            · split
              · exact op_goes _
              · split
                · exact op_goes _
                · split
                  · exact op_goes _
                  · exact nofun

theorem no_number : NoNumber guarded := by
  constructor
  · intro path tok b h
    by_cases hK : Well sound b
    · rw [guarded, guardH_start hK]
      simp only [handler]
      split
      · exact ⟨_, rfl⟩
      · split
        · split
          · exact stringAt_number true h b
          · exact stringAt_number false h b
        · exact ⟨_, rfl⟩
    · exact ⟨_, by simp only [guarded, guardH, hK, if_false]; rfl⟩
  · intro path tok b h
    by_cases hK : Well sound b
    · rw [guarded, guardH_start hK]
      simp only [handler]
      rcases path with _ | ⟨key, above⟩
      · exact nofun
      · simp only
        rcases hph : b.phase with _ | _ | _ | _
        case value =>
          simp only
          split
          · exact typeAt_number h _
          · exact nofun
        case typeKey => exact typeAt_number h ({ b with field := some key, phase := .typeKey } : ToNormal)
        case field =>
          simp only
          split
          · exact nofun
          · exact op_goes _
        case consumed => exact op_goes _
    · simp only [guarded, guardH, hK, if_false]; exact nofun

/-! ## Callbacks that fail -/

variable {F : Nat} {strict : Care}

/-- What was written by an action that failed is the beginning of what `H` writes for the value. -/
def Fell (u : Bytes) (p : Pseudo) (s : RJ) (H : Val → ToNormal × StreamOp) : (RJ × ToNormal) × Acted → Prop
  | (_, .op .none) => True
  | (_, .op .valueIsConsumed) => True
  | ((_, b''), _) => ∀ ws v t, Spaces ws → v.Meets .plain → v.Clear t → Starts p v → s.rest ++ u = ws ++ (v.text ++ t) →
      b''.written <+: (H v).1.written

theorem fell_any {u : Bytes} {p : Pseudo} {s : RJ} {H : Val → ToNormal × StreamOp} {x : (RJ × ToNormal) × Acted}
    (h : ∀ v, x.1.2.written <+: (H v).1.written) : Fell u p s H x := by
  rcases x with ⟨⟨s', b⟩, (_ | _ | m) | _ | _⟩
  · trivial
  · trivial
  all_goals exact fun _ v _ _ _ _ _ _ => h v

theorem fell_settle {u : Bytes} {p : Pseudo} {s : RJ} {H : Val → ToNormal × StreamOp} {x : (RJ × ToNormal) × Acted} (h : Fell u p s H x)
    (g : ToNormal → ToNormal) (hg : ∀ b, (g b).d = b.d) : Fell u p s (fun v => Prod.map g id (H v)) (settle g x) := by
  have hw : ∀ b, (g b).written = b.written := fun b => by simp only [written, hg]
  rcases x with ⟨⟨s', b⟩, (_ | _ | m) | _ | _⟩
  · trivial
  · trivial
  · intro ws v t h1 h2 h3 h4 h5
    simp only [Prod.map, hw]
    exact h ws v t h1 h2 h3 h4 h5
  · intro ws v t h1 h2 h3 h4 h5
    simp only [Prod.map, hw]
    exact h ws v t h1 h2 h3 h4 h5
  · intro ws v t h1 h2 h3 h4 h5
    simp only [Prod.map, hw]
    exact h ws v t h1 h2 h3 h4 h5

theorem fell_act {u : Bytes} {p : Pseudo} {s : RJ} (f : ToNormal → Step) (b : ToNormal) : Fell u p s (fun _ => (f b).op .none) (act f .none s b) := by
  unfold act
  rcases f b with ⟨b', _ | m⟩
  · trivial
  · exact fun _ _ _ _ _ _ _ _ => List.prefix_rfl

theorem not_space_of {c : Byte} (h : isWs c = false) : ¬ Space c := by
  simp only [isWs, Bool.or_eq_false_iff, beq_eq_false_iff_ne] at h
  rintro (h' | h' | h' | h') <;> simp [h'] at h

/-- The first byte of the value is the one that was seen. -/
theorem first_seen {s s1 : RJ} {c : Byte} {t u ws wsv x : Bytes} {v : Val} (hws : Blank ws) (hc : isWs c = false) (hr : s.rest = ws ++ c :: t)
    (hs : s1.rest = c :: t) (hwv : Spaces wsv) (hv : v.Meets .plain) (e : s.rest ++ u = wsv ++ (v.text ++ x)) : s1.rest ++ u = v.text ++ x ∧ v.text.headD 0 = c := by
  obtain ⟨d, r, ev, hd, _⟩ := Val.Meets.first hv
  rw [hr, ev] at e
  obtain ⟨_, k1, k2⟩ := space_split hws hwv hd.1 (not_space_of hc)
    (show ws ++ c :: (t ++ u) = wsv ++ d :: (r ++ x) from by simpa using e)
  rw [hs, ev, k1]
  exact ⟨by simp [k2], rfl⟩

/-- A step behind a token that is not a number. -/
theorem fell_atom {u : Bytes} {p : Pseudo} {s s1 s2 : RJ} {ws tok : Bytes} {H : Val → ToNormal × StreamOp} (hws : Blank ws)
    (hr : s.rest = ws ++ s1.rest) (hs : strict.safe) (ha : Atom F strict s1 s2 tok) (hn : ¬ Number tok) {f : ToNormal → Step} {b : ToNormal}
    (hH : H (.atom tok) = (f b).op .valueIsConsumed) : Fell u p s H (act f .valueIsConsumed s2 b) := by
  unfold act
  revert hH
  rcases f b with ⟨b', _ | m⟩
  · intro _; trivial
  · intro hH ws' v x h1 h2 h3 h4 h5
    obtain ⟨_, _, ws2, k1, k2, _, k4⟩ := ha
    rw [hr, k4] at h5
    rcases Val.top hs h2 (v := .atom tok) (x := s2.rest ++ u) k2 h3 (hws.append k1) h1 (by rw [← h5]; simp [Val.text]) with ⟨e, _⟩ | hc
    · have : v = .atom tok := by
        cases v with
        | atom tok' => injection e with e; rw [e]
        | arr => cases e
        | obj => cases e
      rw [this, hH]
      exact List.prefix_rfl
    · obtain ⟨tok', _, _, _, e, _, _, h, _⟩ := hc
      injection e with e
      exact absurd (e ▸ h) hn

theorem writeString_fell {u : Bytes} {p : Pseudo} {s : RJ} (hf : Scan.Fine F strict s) (hs : strict.safe) {b : ToNormal} (hb : b.d.w.plan = []) (q : Bool)
    (c1 c2 : String) : Fell u p s (fun v => stringAt q v b) (writeString F q c1 c2 s b) := by
  unfold writeString
  rcases hx : s.peek F with ⟨s1, c | e | _ | _⟩
  · obtain ⟨ws, t, e, hws, hc, hs1, hm⟩ := RJ.peek_text hf.usable.sync hf.len hf.usable.fuel hx
    have hf1 : Scan.Fine F strict s1 := hf.loop hm hx
    simp only
    by_cases h34 : c = 34
    · subst h34
      rw [if_neg (by simp)]
      have hfine := (fine_writeComma b).bind (fine_quote q "writing opening quote")
      rcases hq : b.writeComma.bind (quote q "writing opening quote") with ⟨b1, _ | m⟩
      · rw [hq] at hfine
        have hp1 : b1.d.w.plan = [] := by
          obtain ⟨ws, fs, h1, h2, _⟩ := hfine.1
          rw [hb] at h1
          simp only [List.nil_eq, List.append_eq_nil_iff] at h1
          exact h1.2
        simp only [Step.run]
        obtain ⟨y, t', y', z, e1, e0, e2, _, e4, e5⟩ := C89_bytes s1 F b1.d.w _ _ hf1.usable.sync hs1 (by decide)
        rw [e5 hp1, List.append_nil] at e0
        subst e0
        have key : ∀ ws' v x, Spaces ws' → v.Meets .plain → s.rest ++ u = ws' ++ (v.text ++ x) →
            b1.written ++ y <+: (stringAt q v b).1.written := by
          intro ws' v x h1 h2 h3
          obtain ⟨k1, _⟩ := first_seen (Blank.of_aws hws) hc e hs1 h1 h2 h3
          obtain ⟨k2, k3⟩ := string_body (c := t' ++ u) h2 (e4 (hf1.safe hs)) (by rw [← k1, hs1, e1]; simp)
          rw [stringAt, if_pos k2, op_fst]
          exact string_adds q _ b hq k3
        rcases hy : s1.writeLongBytes F b1.d.w with ⟨⟨s2, w2⟩, r2 | e2' | _ | _⟩
        · obtain ⟨body, ha, ho⟩ := string_atom hf1 hs1 hy
          have hw2 : w2 = ⟨b1.d.w.out ++ body, []⟩ := by
            have := handleLong_wrote .raw F s1 b1.d.w
            rw [show RJ.handleLong .raw F s1 b1.d.w = _ from hy] at this
            refine Writer.clean_eq ?_ ho
            rcases this with h | ⟨_, _, _, h⟩
            · exact h.clean hp1
            · cases h
          subst hw2
          refine fell_atom (Blank.of_aws hws) (by rw [e, ← hs1]) hs ha ?_ ?_
          · intro hn
            exact number_not (x := []) (x' := body ++ [34]) (t := []) (c := 34) hn (by decide) (by simp)
          · simp only [stringAt, Val.text, List.head?_cons, if_true, List.tail_cons, List.dropLast_concat, string, hq]
            rfl
        all_goals
          rw [hy] at e2
          intro ws' v x h1 h2 h3 h4 h5
          show w2.out <+: _
          rw [show w2.out = _ from e2]
          exact key ws' v x h1 h2 h5
      · intro ws' v x h1 h2 h3 h4 h5
        obtain ⟨k1, _⟩ := first_seen (Blank.of_aws hws) hc e hs1 h1 h2 h5
        obtain ⟨k2, _⟩ := string_body (y := []) (c := t ++ u) h2 .nil (by rw [← k1, hs1]; simp)
        simp only [stringAt, if_pos k2, op_fst, string, hq]
        exact List.prefix_rfl
    · rw [if_pos h34]
      exact fell_any fun v => stringAt_adds q v b
  all_goals exact fell_any fun v => stringAt_adds q v b

theorem writeBool_fell {u : Bytes} {p : Pseudo} {s : RJ} (hf : Scan.Fine F strict s) (hs : strict.safe) {b : ToNormal}
    (o : Byte → Bytes × Option String) (ho : ∀ c, (o c).2 = none → c = 116 ∨ c = 102) (name : String) :
    Fell u p s (fun v => boolAt o name v b) (writeBool F o name s b) := by
  unfold writeBool
  rcases hx : s.peek F with ⟨s1, c | e | _ | _⟩
  · obtain ⟨ws, t, e, hws, hc, hs1, hm⟩ := RJ.peek_text hf.usable.sync hf.len hf.usable.fuel hx
    have hf1 : Scan.Fine F strict s1 := hf.loop hm hx
    simp only
    have ho := ho c
    have hB : ∀ v : Val, v.text.headD 0 = c → boolAt o name v b = match o c with
        | (_, some m) => (b, .error m)
        | (bytes, none) => (b.writeComma.bind fun b => (b.put bytes name).bind (set fun b => { b with comma := true, type := none })).op .valueIsConsumed :=
      fun v hv => by unfold boolAt; rw [hv]; rcases o c with ⟨_, _ | _⟩ <;> rfl
    rcases hoc : o c with ⟨bytes, _ | m⟩
    · rw [hoc] at ho hB
      have hcc := ho rfl
      simp only at hB ⊢
      rcases hq : b.writeComma with ⟨b1, _ | m⟩
      · simp only [Step.run]
        simp only [hq] at hB
        have key : ∀ v : Val, v.text.headD 0 = c → b1.written <+: (boolAt o name v b).1.written := by
          intro v hv
          rw [hB v hv, op_fst]
          exact (bool_smooth bytes name).adds b1
        rcases hy : s1.knownBool F c with ⟨s2, r2 | e2 | _ | _⟩
        · simp only
          rcases hcc with rfl | rfl
          · refine fell_atom (Blank.of_aws hws) (by rw [e, ← hs1]) hs (true_atom hf1 hs1 hy) ?_ (hB _ rfl)
            intro hn
            exact number_not (x := []) (x' := [114, 117, 101]) (t := []) (c := 116) hn (by decide) (by simp)
          · refine fell_atom (Blank.of_aws hws) (by rw [e, ← hs1]) hs (false_atom hf1 hs1 hy) ?_ (hB _ rfl)
            intro hn
            exact number_not (x := []) (x' := [97, 108, 115, 101]) (t := []) (c := 102) hn (by decide) (by simp)
        all_goals
          intro ws' v x h1 h2 h3 h4 h5
          exact key v (first_seen (Blank.of_aws hws) hc e hs1 h1 h2 h5).2
      · intro ws' v x h1 h2 h3 h4 h5
        simp only [hB v (first_seen (Blank.of_aws hws) hc e hs1 h1 h2 h5).2, hq, op_fst]
        exact List.prefix_rfl
    · exact fell_any fun v => boolAt_adds o name v b
  all_goals exact fell_any fun v => boolAt_adds o name v b

theorem onTypeKey_fell {u : Bytes} {p : Pseudo} {s : RJ} (hf : Scan.Fine F strict s) (hs : strict.safe) {b : ToNormal} (hb : b.d.w.plan = []) :
    Fell u p s (fun v => typeAt v b) (onTypeKey F s b) := by
  unfold typeAt onTypeKey
  cases b.field with
  | none => exact fell_any fun _ => List.prefix_rfl
  | some key =>
    simp only
    split
    · exact fell_settle (writeString_fell hf hs hb _ _ _) _ fun _ => rfl
    · split
      · exact fell_settle (writeString_fell hf hs hb _ _ _) _ fun _ => rfl
      · split
        · exact fell_settle (writeBool_fell hf hs _ boolOutput_word _) _ fun _ => rfl
        · split
          · exact fell_settle (writeBool_fell hf hs _ nullOutput_word _) _ fun _ => rfl
          · split
            · exact fell_act _ _
            · split
              · exact fell_act _ _
              · split
                · exact fell_act _ _
                · split
                  · exact fell_act _ _
                  · exact fell_any fun _ => List.prefix_rfl

/-- The same for what a matcher returns. -/
def Fails (u : Bytes) (p : Pseudo) (s : RJ) (H : Val → ToNormal × StreamOp) : ToNormal × Option (Action ToNormal) → Prop
  | (_, none) => True
  | (b, some act) => Fell u p s H (act s b)

theorem find_fails {u : Bytes} (p : Pseudo) (path : List Bytes) {s : RJ} (hf : Scan.Fine F strict s) (hs : strict.safe) {b : ToNormal} (hb : b.d.w.plan = []) :
    Fails u p s (fun v => handler.start p path v b) (find F p ⟨path, path.length⟩ b) := by
  have hrej : ∀ c H, (∀ v, b.written <+: (H v : ToNormal × StreamOp).1.written) → Fails u p s H (reject c b) := fun c H h => by
    unfold reject Fails
    exact fell_any h
  simp only [find, handler]
  cases p with
  | object =>
    simp only [findObject]
    split
    · exact fell_act _ _
    · cases b.phase with
      | value => exact hrej _ _ fun _ => List.prefix_rfl
      | typeKey =>
        simp only
        split
        · exact hrej _ _ fun _ => List.prefix_rfl
        · trivial
      | field => trivial
      | consumed =>
        simp only
        split
        · trivial
        · exact hrej _ _ fun _ => List.prefix_rfl
  | none =>
    rcases path with _ | ⟨key, above⟩
    · trivial
    · simp only [findKey]
      rcases hph : b.phase with _ | _ | _ | _
      case value =>
        simp only
        split
        · exact onTypeKey_fell hf hs hb
        · exact hrej _ _ fun _ => List.prefix_rfl
      case typeKey => exact onTypeKey_fell (b := { b with field := some key, phase := .typeKey }) hf hs hb
      case field =>
        simp only
        split
        · trivial
        · exact fell_act _ _
      case consumed => exact fell_act _ _
  | array =>
    simp only [findArray]
    rcases b.type with _ | _ | _ | _ | _
    · exact hrej _ _ fun _ => List.prefix_rfl
    · trivial
    · trivial
    · trivial
    · exact hrej _ _ fun _ => List.prefix_rfl
  | atom =>
    simp only [findAtom]
    split
    · exact hrej _ _ fun _ => List.prefix_rfl
    · split
      · split
        · exact writeString_fell hf hs hb _ _ _
        · exact writeString_fell hf hs hb _ _ _
      · exact hrej _ _ fun _ => List.prefix_rfl

theorem sees_all (u : Bytes) (hs : strict.safe) : SeesAll (guardCb (Well sound) (callbacks F)) guarded (Onward guarded written u False) F strict := by
  refine ⟨guard_sees sees, fun p path b s hf => ?_⟩
  by_cases hK : Well sound b
  · have h := find_fails (u := u) p path hf hs (well_iff.1 hK).1
    simp only [guardCb, hK, if_true, callbacks]
    have hE : ∀ b'', (∀ ws v t, Spaces ws → v.Meets .plain → v.Clear t → Starts p v → s.rest ++ u = ws ++ (v.text ++ t) →
        b''.written <+: (handler.start p path v b).1.written) → Onward guarded written u False p path s.rest b b'' := by
      intro b'' h _ ws v t h1 h2 h3 h4 h5
      rw [guarded, guardH_start hK]
      exact h ws v t h1 h2 h3 h4 h5
    revert h
    rcases find F p ⟨path, path.length⟩ b with ⟨b', _ | act⟩
    · exact id
    · simp only [Fails]
      rcases act s b' with ⟨⟨s', b''⟩, (_ | _ | m) | _ | _⟩
      · exact id
      · exact id
      all_goals exact hE b''
  · simp only [guardCb, hK, if_false]
    exact fun _ ws v t _ _ _ _ _ => grows_guarded.start p path v b

/-- What a run with a sound writer has done, `Ok` or not: it has read documents and the beginning of a document. -/
theorem run_begins {turns F : Nat} {reader : Reader} {d : Dest} {rb cb u : Bytes} {pretty asWrapper : Bool} (h8 : 8 ≤ rb.length)
    (hf : 2 * reader.size + 2 ≤ F) (hn : 2 * reader.pending.length + 2 ≤ turns) (hh : Harmless (.new reader rb)) :
    ∃ ds b0 x t b1 b', reader.pending = Docs.text ds (b0 ++ (Stub.lead x ++ t)) ∧ Docs.Loose (Harmless (.new reader rb)) ds b0 ∧
      Docs.Parted rb.length ds (b0 ++ (Stub.lead x ++ t)) ∧ x.Loose (Harmless (.new reader rb)) ∧
      Docs.scan guarded ⟨cb.length - 272, 68, 68⟩ [nameTop] ds (Cfg.st ⟨false, pretty, asWrapper⟩ d.w.out false 0 .field none none) = .done b1 ∧
      x.Gives guarded (Onward guarded written u False) ⟨cb.length - 272, 68, 68⟩ [nameTop] t b1 b' ∧
      (convertDdbToNormal turns F reader d.perfect rb cb pretty false asWrapper).1.d.w.out = b'.d.w.out := by
  have hu := usable_new reader rb F h8 hf
  rcases C58_returns_partial F reader d.perfect rb cb pretty false asWrapper h8 hf turns hn with h | ⟨e, position, h⟩
  · obtain ⟨ds, tail, b', h1, h2, h3, h4, h5⟩ := ok_docs hu h
    exact ⟨ds, tail, .nothing, [], b', b', by simpa [Stub.lead] using h1, h2, by simpa [Stub.lead] using h3, trivial, h4, rfl, h5⟩
  · by_cases hcb : 272 < cb.length
    · obtain ⟨pool, hp, hl⟩ := pool_new cb 68 (by decide) (by decide) (by omega)
      unfold convertDdbToNormal at h ⊢
      simp only [hp] at h ⊢
      have hK : Well sound (ToNormal.new d.perfect pretty false asWrapper) := well_iff.2 ⟨rfl, rfl, by intro k; simp [ToNormal.new]⟩
      have hg := guard_scan (callbacks_keep F sound) turns F ⟨[], false⟩ ⟨.new reader rb, .new d.perfect pretty false asWrapper, pool⟩ hK
      have key : ∀ st r, scan turns F (guardCb (Well sound) (callbacks F)) ⟨[], false⟩ ⟨.new reader rb, .new d.perfect pretty false asWrapper, pool⟩ = (st, r) →
          r ≠ .ok () → r ≠ .diverge → ∃ ds b0 x t b1, reader.pending = Docs.text ds (b0 ++ (Stub.lead x ++ t)) ∧ Docs.Loose (Harmless (.new reader rb)) ds b0 ∧
          Docs.Parted rb.length ds (b0 ++ (Stub.lead x ++ t)) ∧ x.Loose (Harmless (.new reader rb)) ∧
          Docs.scan guarded ⟨cb.length - 272, 68, 68⟩ [nameTop] ds (Cfg.st ⟨false, pretty, asWrapper⟩ d.w.out false 0 .field none none) = .done b1 ∧
          x.Gives guarded (Onward guarded written u False) ⟨cb.length - 272, 68, 68⟩ [nameTop] t b1 st.baton := by
        intro st r hx h1 h2
        obtain ⟨ds, b0, x, t, b1, k1, _, k3, k4, k5, _, k6, k7⟩ :=
          (scan_part (sees_all u (strict := ⟨Harmless (.new reader rb), rb.length⟩) hh) rfl turns ⟨hu, id, rfl⟩ hl hx h1 h2).broken_stop
        exact ⟨ds, b0, x, t, b1, by rw [← rest_new reader rb]; exact k1, k3, k4, k5, k6, k7⟩
      rcases hs : scan turns F (callbacks F) ⟨[], false⟩ ⟨.new reader rb, .new d.perfect pretty false asWrapper, pool⟩ with ⟨st, _ | e' | _ | _⟩
      · rw [hs] at h; simp at h
      · rw [hs] at hg
        obtain ⟨ds, b0, x, t, b1, k⟩ := key _ _ hg (by simp) (by simp)
        refine ⟨ds, b0, x, t, b1, st.baton, k.1, k.2.1, k.2.2.1, k.2.2.2.1, k.2.2.2.2.1, k.2.2.2.2.2, rfl⟩
      · rw [hs] at h; simp at h
      · rw [hs] at h; simp at h
    · refine ⟨[], [], .nothing, reader.pending, _, _, by simp [Stub.lead, Docs.text], List.forall_mem_nil _, trivial, trivial, rfl, rfl, ?_⟩
      unfold convertDdbToNormal U8Pool.new
      have : U8Pool.descSize = 4 := rfl
      rw [if_neg (by decide)]
      by_cases hc : cb = []
      · rw [if_pos hc]
        rfl
      · rw [if_neg hc]
        dsimp only
        rw [if_pos (by rw [this]; omega)]
        rfl

end ToNormal

/-! ## C92 -/

theorem beginning {turns F : Nat} {reader : Reader} {d : Dest} {rb cb u tail : Bytes} {pretty unbuffered asWrapper : Bool} {ds : Docs} {R : Room}
    {b2 : ToNormal} (h8 : 8 ≤ rb.length) (hf : 2 * reader.size + 2 ≤ F) (hn : 2 * reader.pending.length + 2 ≤ turns) (hh : Harmless (.new reader rb))
    (hr : reader.pending ++ u = Docs.text ds tail) (hj : Docs.Json ds tail)
    (h2 : Docs.scan ToNormal.guarded R [nameTop] ds (ToNormal.Cfg.st ⟨false, pretty, asWrapper⟩ d.w.out false 0 .field none none) = .done b2) :
    (convertDdbToNormal turns F reader d rb cb pretty unbuffered asWrapper).1.d.w.out <+: b2.d.w.out := by
  obtain ⟨ds', b0, x, t, b1, b', k1, k3, k4, k5, k6, k7, k8⟩ := ToNormal.run_begins (u := u) (d := d) (cb := cb) (pretty := pretty) (asWrapper := asWrapper) h8 hf hn hh
  refine (C74_to_normal turns F reader d rb cb pretty unbuffered asWrapper).2.trans ?_
  rw [k8]
  refine Docs.Same.ahead ToNormal.grows_guarded ToNormal.unspaced.guard ds' ds _ b1 b' b2 (fun _ _ h => h.elim) hj
    (Docs.Of.taken ToNormal.no_number ds' ds _ b1 b'
      (Docs.start hh k5 (Stub.Gives.faces x _ _ _ _ k7) ds' ds hj (fun v hv => ?_) k3 k4 (k1 ▸ hr)) k6 k7) k6 k7 h2
  have := ToNormal.no_atoms R ds _ _ h2 v hv
  revert this
  cases v.2 with
  | atom tok => exact fun h => absurd rfl (h tok)
  | arr => exact fun _ => trivial
  | obj => exact fun _ => trivial

/-- **C92, partial.** If the input is the beginning of a stream of items in DynamoDB JSON, then what `convert_ddb_to_normal` has written is a beginning of
these items as plain JSON, with whatever result it returns; for any chunks, a reader and a writer that may fail, a buffer of at least
eight bytes and any context buffer. For `hm` and `ho` see C49. `hfit` says that the names on a path together are shorter than 64 KiB.

Full statement: without `Harmless`, that is, for every input. It is false of the code: `C92_half_escape`. -/
theorem C92_output_partial (turns F : Nat) (reader : Reader) (d : Dest) (rb cb : Bytes) (pretty unbuffered asWrapper : Bool) (R : Room) (D : DDocs)
    (u tail : Bytes) (h8 : 8 ≤ rb.length) (hf : 2 * reader.size + 2 ≤ F) (hn : 2 * reader.pending.length + 2 ≤ turns)
    (hh : Harmless (.new reader rb)) (hr : reader.pending ++ u = Docs.text D.json tail) (hj : Docs.Json D.json tail) (hfit : Docs.Fit R [nameTop] D.json)
    (hm : ∀ x ∈ D, x.2.members.Names (· ≠ nameArray)) (ho : ∀ x ∈ D, x.2.members.Orderly) (hw : ∀ x ∈ D, x.2.Reads asWrapper) :
    (convertDdbToNormal turns F reader d rb cb pretty unbuffered asWrapper).1.d.w.out <+: d.w.out ++ DDocs.plain pretty D := by
  obtain ⟨ty', f', h6⟩ := ToNormal.docs_plain (C := ⟨false, pretty, asWrapper⟩) R D d.w.out none none (by simp) hfit hm ho hw
  exact beginning h8 hf hn hh hr hj h6

/-- **C92, partial**, for any JSON: if `convert_ddb_to_normal` returns `Ok` on a text of JSON documents, then on any beginning of this text, in any chunks
and with other buffers and another writer, it writes a beginning of what it has written for the whole. -/
theorem C92_agree_partial (turns turns' F F' : Nat) (reader reader' : Reader) (d d' : Dest) (rb rb' cb cb' : Bytes) (pretty unbuffered unbuffered' asWrapper : Bool)
    (u tail : Bytes) (ds : Docs) (h8 : 8 ≤ rb.length) (hf : 2 * reader.size + 2 ≤ F) (hn : 2 * reader.pending.length + 2 ≤ turns)
    (hh : Harmless (.new reader rb)) (hu' : Usable F' (.new reader' rb')) (hr : reader.pending ++ u = reader'.pending) (hr' : reader'.pending = Docs.text ds tail)
    (hj : Docs.Json ds tail) (hd : d.w.out = d'.w.out)
    (h' : (convertDdbToNormal turns' F' reader' d' rb' cb' pretty unbuffered' asWrapper).2 = .ok) :
    (convertDdbToNormal turns F reader d rb cb pretty unbuffered asWrapper).1.d.w.out <+:
      (convertDdbToNormal turns' F' reader' d' rb' cb' pretty unbuffered' asWrapper).1.d.w.out := by
  obtain ⟨ds2, tail2, b2, k1, k2, k3, k4, k5⟩ := ToNormal.ok_docs hu' h'
  have e2 := Docs.unique hj (.inr (ToNormal.no_atoms _ _ _ _ k4)) k2 k3 (hr'.symm.trans k1)
  rw [show Docs.scan ToNormal.guarded _ _ ds2 = _ from Unspaced.docs ToNormal.unspaced.guard _ _ e2, ← hd] at k4
  rw [k5]
  exact beginning h8 hf hn hh (hr.trans hr') hj k4

/-! ### Examples -/

/-- The first 40 bytes of the items of C49, up to and with the `x` of the set, in two chunks, and then the reader fails. -/
def exCut : Reader := whole ((Docs.text exItems.json [32]).take 10) ++ (whole (((Docs.text exItems.json [32]).take 40).drop 10) ++ [.fail 5])

/-- The hypotheses of `C92_output_partial`, and what is written: `{"a":[1,{"b":["`. -/
example : 2 * exCut.size + 2 ≤ 200 ∧ 2 * exCut.pending.length + 2 ≤ 200 ∧ Harmless (.new exCut (List.replicate 10 0)) ∧
    exCut.pending ++ (Docs.text exItems.json [32]).drop 40 = Docs.text exItems.json [32] ∧ Docs.Json exItems.json [32] ∧
    Docs.Fit ⟨400 - 272, 68, 68⟩ [nameTop] exItems.json ∧
    (∀ d ∈ exItems, d.2.members.Names (· ≠ nameArray)) ∧ (∀ d ∈ exItems, d.2.members.Orderly) ∧ (∀ d ∈ exItems, d.2.Reads true) ∧
    (convertDdbToNormal 200 200 exCut ⟨⟨[], []⟩, []⟩ (List.replicate 10 0) (List.replicate 400 0) false false true).1.d.w.out =
      "{\"a\":[1,{\"b\":[\"".toUTF8.toList := by
  refine ⟨by decide +kernel, by decide +kernel, .inr (by decide +kernel), by decide +kernel, Docs.Meets.json exItems_meets, ?_, ?_, ?_, ?_, by decide +kernel⟩
  · simp only [exItems, exDdb, DDocs.json, List.map_cons, List.map_nil, DDoc.json, DMembers.json, DVal.json, DItems.json, elemsJson, Sp.wrap, Docs.Fit, Val.Fit, Items.Fit,
      Members.Fit]
    decide
  · intro d hd
    simp only [exItems, List.mem_cons, List.not_mem_nil, or_false] at hd
    rcases hd with rfl | rfl
    · simp [exDdb, DDoc.members, DMembers.Names, DVal.Names, DItems.Names, nameArray]
    · simp [DDoc.members, DMembers.Names, DVal.Names, nameArray]
  · intro d hd
    simp only [exItems, List.mem_cons, List.not_mem_nil, or_false] at hd
    rcases hd with rfl | rfl
    · simp [exDdb, DDoc.members, DMembers.Orderly, DVal.Orderly, DItems.Orderly, DVal.isSet]
    · simp [DDoc.members, DMembers.Orderly, DVal.Orderly]
  · intro d hd
    simp only [exItems, List.mem_cons, List.not_mem_nil, or_false] at hd
    rcases hd with rfl | rfl
    · exact fun _ => by decide
    · rfl

/-- The hypotheses of `C92_agree_partial`, with the same beginning and all of the items at once. -/
example : Usable 200 (.new (whole (Docs.text exItems.json [32])) (List.replicate 120 0)) ∧
    exCut.pending ++ (Docs.text exItems.json [32]).drop 40 = (whole (Docs.text exItems.json [32])).pending ∧
    (whole (Docs.text exItems.json [32])).pending = Docs.text exItems.json [32] ∧
    (convertDdbToNormal 140 200 (whole (Docs.text exItems.json [32])) ⟨⟨[], []⟩, []⟩ (List.replicate 120 0) (List.replicate 400 0) false false true).2 = .ok :=
  ⟨usable_new _ _ _ (by decide) (by decide +kernel), by decide +kernel, by decide +kernel, by decide +kernel⟩

/-- `{"éé":{"S":"\"}}x"}}`, an item. -/
def exHalf : DDocs := [([], .bare [] (.cons [] [195, 169, 195, 169] [] [] (.string .no false [92, 34, 125, 125, 120]) [] .nil))]

theorem exHalf_json : Docs.Json exHalf.json [] := by
  have h0 : Spaces [] := by intro c hc; simp at hc
  have he : RawBody [195, 169, 195, 169] :=
    .char 'é' [195, 169] ⟨by decide, by decide, by decide⟩ (.char 'é' [] ⟨by decide, by decide, by decide⟩ .nil)
  have hq : RawBody [92, 34, 125, 125, 120] :=
    .esc 34 '"' _ (by unfold Escape; decide) (.char '}' [125, 120] ⟨by decide, by decide, by decide⟩
      (.char '}' [120] ⟨by decide, by decide, by decide⟩ (.char 'x' [] ⟨by decide, by decide, by decide⟩ .nil)))
  have hS : RawBody [83] := .char 'S' [] ⟨by decide, by decide, by decide⟩ .nil
  have hv : Val.Meets .plain (.atom [34, 92, 34, 125, 125, 120, 34]) := .string _ hq trivial
  exact ⟨h0, ⟨h0, h0, ⟨he, trivial⟩, h0, h0, ⟨h0, h0, ⟨hS, trivial⟩, h0, h0, hv, trivial, h0, trivial⟩, trivial, h0, trivial⟩, trivial, h0⟩

/-- **C92, a false part**, and the reason for `Harmless`: for the item `{"éé":{"S":"\"}}x"}}`, in two chunks, the converter writes `{"éé":"\"}` and a line feed,
which is not a beginning of `{"éé":"\"}}x"}`. -/
theorem C92_half_escape : ∃ reader : Reader, reader.Clean ∧ reader.pending = Docs.text exHalf.json [] ∧ Docs.Json exHalf.json [] ∧
    (∀ d ∈ exHalf, d.2.members.Names (· ≠ nameArray)) ∧ (∀ d ∈ exHalf, d.2.members.Orderly) ∧ (∀ d ∈ exHalf, d.2.Reads false) ∧
    (convertDdbToNormal 100 100 reader ⟨⟨[], []⟩, []⟩ (List.replicate 40 0) (List.replicate 400 0) false false false).1.d.w.out =
      "{\"éé\":\"\\\"}\n".toUTF8.toList ∧
    ¬ (convertDdbToNormal 100 100 reader ⟨⟨[], []⟩, []⟩ (List.replicate 40 0) (List.replicate 400 0) false false false).1.d.w.out <+:
      DDocs.plain false exHalf := by
  refine ⟨[.data 123 [34, 195, 169, 195, 169, 34, 58, 123, 34, 83, 34, 58, 34, 92, 34], .data 125 [125, 120, 34, 125, 125]], by decide, by decide +kernel,
    exHalf_json, ?_, ?_, ?_, by decide +kernel, by decide +kernel⟩
  · intro d hd
    simp only [exHalf, List.mem_cons, List.not_mem_nil, or_false] at hd
    subst hd
    simp [DDoc.members, DMembers.Names, DVal.Names, nameArray]
  · intro d hd
    simp only [exHalf, List.mem_cons, List.not_mem_nil, or_false] at hd
    subst hd
    simp [DDoc.members, DMembers.Orderly, DVal.Orderly]
  · intro d hd
    simp only [exHalf, List.mem_cons, List.not_mem_nil, or_false] at hd
    subst hd
    exact fun h => by simp at h

end Verif.Ddb
