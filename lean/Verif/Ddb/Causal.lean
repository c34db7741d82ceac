import Verif.Scan.CausalProps
import Verif.Ddb.Ahead
import Verif.Ddb.Faults
import Verif.Ddb.LateProps

/-!
# Property C110: what is written does not change with what arrives later (`convert_ddb_to_normal`)
-/

namespace Verif.Ddb

open Verif.RJiter
open Verif.Scan

namespace ToNormal

variable {R : Reader} {F : Nat}

/-- What the one has written, the other one has written first. -/
def OutLe (a b : ToNormal) : Prop := a.d.w.out <+: b.d.w.out

theorem still {x y : (RJ × ToNormal) × Acted} {s : RJ} (hr : Primed F s) (h1 : x.1.1 = s)
    (h2 : y = ((x.1.1.more R, x.1.2), x.2)) : ApartAct R F OutLe x y :=
  .inl ⟨h2, fun _ => by rw [h1]; exact hr⟩

theorem run_apart (x : Step) {s : RJ} (hr : Primed F s) {g : Action ToNormal}
    (hg : ∀ b, ApartAct R F OutLe (g s b) (g (s.more R) b)) : ApartAct R F OutLe (x.run s g) (x.run (s.more R) g) := by
  rcases x with ⟨b, _ | m⟩
  · exact hg b
  · exact still hr rfl rfl

theorem act_apart (f : ToNormal → Step) (op : StreamOp) {s : RJ} (hr : Primed F s) (b : ToNormal) :
    ApartAct R F OutLe (act f op s b) (act f op (s.more R) b) :=
  run_apart _ hr fun _ => still hr rfl rfl

/-- A parser call in an action, and the rest of the action. -/
theorem stays_then {α : Type} {s : RJ} {x y : RJ × Res α} {m : Nat} (hw : RJ.Stays R x y) (hrun : s.Runs m x)
    (hr : Primed F s) {g : RJ × Res α → (RJ × ToNormal) × Acted} {d0 : Dest}
    (hok : ∀ s' v, Primed F s' → ApartAct R F OutLe (g (s', .ok v)) (g (s'.more R, .ok v)))
    (herr : ∀ s' e, (∃ m, (g (s', .err e)).2 = .op (.error m)) ∧ (g (s', .err e)).1.2.d = d0)
    (hgrow : d0.w.out <+: (g y).1.2.d.w.out) : ApartAct R F OutLe (g x) (g y) := by
  rcases x with ⟨s', v | e | _ | _⟩
  · obtain ⟨n, _, hm⟩ := hrun
    rw [hw s' v rfl]
    exact hok _ _ (hr.moved hm)
  · refine .inr ⟨(herr s' e).1, ?_⟩
    unfold OutLe
    rw [(herr s' e).2]
    exact hgrow
  · exact hrun.elim
  · exact hrun.elim

theorem flushed_adds (quotes : Bool) (s : RJ) (b : ToNormal) :
    b.d.w.out <+: (act (fun b => b.flushLong.bind fun b => (b.quote quotes "writing closing quote").bind
      (set fun b => { b with comma := true })) .valueIsConsumed s b).1.2.d.w.out :=
  (smooth_act (smooth_flushLong.bind ((smooth_quote quotes _).bind (smooth_setf (by intro _; rfl) (by intro _; rfl)))) _ s b).2

theorem writeString_apart (quotes : Bool) (pc wc : String) {s : RJ} (hr : Primed F s) (b : ToNormal) :
    ApartAct R F OutLe (writeString F quotes pc wc s b) (writeString F quotes pc wc (s.more R) b) := by
  have hl : 2 ≤ s.b.buf.length := by have := hr.usable.len; omega
  have hgrow := (smooth_writeString F quotes pc wc (s.more R) b).2
  unfold writeString at hgrow ⊢
  refine stays_then (d0 := b.d) (RJ.C109_calls R F hr.usable.sync).1 (RJ.peek_runs hr.usable.sync hl hr.usable.fuel) hr (g := fun x => match x with
    | (rj, .ok peek) =>
      if peek ≠ 34 then ((rj, b), .op (.error "Expected string value"))
      else
        (b.writeComma.bind (quote quotes "writing opening quote")).run rj fun rj b =>
          match rj.writeLongBytes F b.d.w with
          | ((rj, w), .ok ()) =>
            act (fun b => b.flushLong.bind fun b => (b.quote quotes "writing closing quote").bind
              (set fun b => { b with comma := true })) .valueIsConsumed rj { b with d := { b.d with w := w } }
          | ((rj, w), .err e) => ((rj, ({ b with d := { b.d with w := w } } : ToNormal).storeRj e wc), .op (.error "Failed to write value"))
          | ((rj, w), .panic) => ((rj, { b with d := { b.d with w := w } }), .panic)
          | ((rj, w), .diverge) => ((rj, { b with d := { b.d with w := w } }), .diverge)
    | (rj, .err e) => ((rj, b.storeRj e pc), .op (.error "Failed to peek string value"))
    | (rj, .panic) => ((rj, b), .panic)
    | (rj, .diverge) => ((rj, b), .diverge)) ?_ ?_ hgrow
  · intro s' v hs
    simp only
    split
    · exact still hs rfl rfl
    · refine run_apart _ hs fun b => ?_
      simp only [RJ.writeLongBytes]
      have hrun := RJ.handleLong_runs .raw b.d.w hs.usable.sync hs.usable.len hs.usable.fuel
      have hw := handleLong_more R .raw F s' b.d.w
      generalize s'.handleLong .raw F b.d.w = x at hrun hw
      generalize (s'.more R).handleLong .raw F b.d.w = y at hw
      rcases x with ⟨⟨s2, w2⟩, v | e | _ | _⟩
      · obtain ⟨n, _, hm⟩ := hrun
        rcases hw with rfl | ⟨h, _⟩
        · exact act_apart _ _ (hs.moved hm) _
        · exact absurd rfl (h v)
      · refine .inr ⟨⟨_, rfl⟩, ?_⟩
        rcases hw with rfl | ⟨_, hw⟩
        · exact List.prefix_rfl
        · rcases y with ⟨⟨t, w3⟩, v | e | _ | _⟩
          · exact List.IsPrefix.trans hw (flushed_adds quotes t ({ b with d := { b.d with w := w3 } } : ToNormal))
          all_goals exact hw
      · exact hrun.elim
      · exact hrun.elim
  · intro s' e
    exact ⟨⟨_, rfl⟩, rfl⟩

theorem writeBool_apart (output : Byte → Bytes × Option String) (name : String) {s : RJ} (hr : Primed F s) (b : ToNormal) :
    ApartAct R F OutLe (writeBool F output name s b) (writeBool F output name (s.more R) b) := by
  have hl : 2 ≤ s.b.buf.length := by have := hr.usable.len; omega
  have hgrow := (smooth_writeBool F output name (s.more R) b).2
  unfold writeBool at hgrow ⊢
  refine stays_then (d0 := b.d) (RJ.C109_calls R F hr.usable.sync).1 (RJ.peek_runs hr.usable.sync hl hr.usable.fuel) hr (g := fun x => match x with
    | (rj, .ok peek) =>
      match output peek with
      | (_, some m) => ((rj, b), .op (.error m))
      | (bytes, none) =>
        b.writeComma.run rj fun rj b =>
          match rj.knownBool F peek with
          | (rj, .ok _) =>
            act (fun b => (b.put bytes name).bind (set fun b => { b with comma := true, type := none })) .valueIsConsumed rj b
          | (rj, .err e) => ((rj, b.storeRj e name), .op (.error "Failed to consume boolean value"))
          | (rj, .panic) => ((rj, b), .panic)
          | (rj, .diverge) => ((rj, b), .diverge)
    | (rj, .err e) => ((rj, b.storeRj e name), .op (.error "Failed to peek value"))
    | (rj, .panic) => ((rj, b), .panic)
    | (rj, .diverge) => ((rj, b), .diverge)) ?_ ?_ hgrow
  · intro s' v hs
    have hl' : 2 ≤ s'.b.buf.length := by have := hs.usable.len; omega
    simp only
    rcases output v with ⟨bytes, _ | m⟩
    · refine run_apart _ hs fun b => ?_
      obtain ⟨-, -, -, h2, -⟩ := RJ.C109_calls R F hs.usable.sync
      refine stays_then (d0 := b.d) (h2 v) (RJ.knownBool_runs v hs.usable.sync hl' hs.usable.fuel) hs (g := fun x => match x with
        | (rj, .ok _) =>
          act (fun b => (b.put bytes name).bind (set fun b => { b with comma := true, type := none })) .valueIsConsumed rj b
        | (rj, .err e) => ((rj, b.storeRj e name), .op (.error "Failed to consume boolean value"))
        | (rj, .panic) => ((rj, b), .panic)
        | (rj, .diverge) => ((rj, b), .diverge)) ?_ ?_ ?_
      · intro s2 v2 hs2
        exact act_apart _ _ hs2 _
      · intro s2 e
        exact ⟨⟨_, rfl⟩, rfl⟩
      · rcases (s'.more R).knownBool F v with ⟨t, v | e | _ | _⟩
        · exact (smooth_act ((smooth_put _ _).bind (smooth_setf (by intro _; rfl) (by intro _; rfl))) _ t b).2
        all_goals exact List.prefix_rfl
    · exact still hs rfl rfl
  · intro s' e
    exact ⟨⟨_, rfl⟩, rfl⟩

theorem settle_d {f : ToNormal → ToNormal} (hf : ∀ b, (f b).d = b.d) (x : (RJ × ToNormal) × Acted) : (settle f x).1.2.d = x.1.2.d := by
  rcases x with ⟨⟨s, b⟩, op | _ | _⟩
  · exact hf b
  · rfl
  · rfl

theorem settle_apart {f : ToNormal → ToNormal} (hf : ∀ b, (f b).d = b.d) {x y : (RJ × ToNormal) × Acted} (h : ApartAct R F OutLe x y) :
    ApartAct R F OutLe (settle f x) (settle f y) := by
  rcases h with ⟨rfl, h⟩ | ⟨⟨m, h1⟩, h2⟩
  · rcases x with ⟨⟨s, b⟩, o | _ | _⟩
    · exact .inl ⟨rfl, h⟩
    · exact .inl ⟨rfl, h⟩
    · exact .inl ⟨rfl, h⟩
  · refine .inr ⟨⟨m, ?_⟩, ?_⟩
    · rcases x with ⟨⟨s, b⟩, r⟩
      simp only at h1
      subst h1
      rfl
    · unfold OutLe
      rw [settle_d hf, settle_d hf]
      exact h2

theorem onTypeKey_apart {s : RJ} (hr : Primed F s) (b : ToNormal) : ApartAct R F OutLe (onTypeKey F s b) (onTypeKey F (s.more R) b) := by
  unfold onTypeKey
  rcases b.field with _ | key
  · exact still hr rfl rfl
  · simp only
    repeat' split
    · refine settle_apart ?_ (writeString_apart _ _ _ hr b); intro _; rfl
    · refine settle_apart ?_ (writeString_apart _ _ _ hr b); intro _; rfl
    · refine settle_apart ?_ (writeBool_apart _ _ hr b); intro _; rfl
    · refine settle_apart ?_ (writeBool_apart _ _ hr b); intro _; rfl
    · exact act_apart _ _ hr b
    · exact act_apart _ _ hr b
    · exact act_apart _ _ hr b
    · exact act_apart _ _ hr b
    · exact still hr rfl rfl

/-- An action that does the same up to the end, and only adds. -/
def ApartFrom (R : Reader) (F : Nat) (act : Action ToNormal) : Prop := ∀ s, Primed F s → ∀ b, ApartAct R F OutLe (act s b) (act (s.more R) b)

theorem find_apart (p : Pseudo) (c : Ctx) (b : ToNormal) (act : Action ToNormal) (h : (find F p c b).2 = some act) : ApartFrom R F act := by
  have hact : ∀ f op, ApartFrom R F (ToNormal.act f op) := fun f op s hr b => act_apart f op hr b
  have htk : ApartFrom R F (onTypeKey F) := fun s hr b => onTypeKey_apart hr b
  have herr : ApartFrom R F onError := fun _ hr _ => still hr rfl rfl
  have hrej : ∀ {cx : String} {b : ToNormal}, (reject cx b).2 = some act → ApartFrom R F act := by
    intro cx b h
    injection h with h; subst h; exact herr
  unfold find at h
  cases p with
  | object =>
    simp only [findObject] at h
    repeat' split at h
    all_goals first
      | exact hrej h
      | (injection h with h; subst h; exact hact _ _)
      | cases h
  | none =>
    simp only [findKey] at h
    repeat' split at h
    all_goals first
      | exact hrej h
      | (injection h with h; subst h; first | exact hact _ _ | exact htk)
      | cases h
  | array =>
    simp only [findArray] at h
    repeat' split at h
    all_goals first
      | exact hrej h
      | cases h
  | atom =>
    simp only [findAtom] at h
    repeat' split at h
    all_goals first
      | exact hrej h
      | (injection h with h; subst h; exact fun s hr b => writeString_apart _ _ _ hr b)

theorem only_adds (F : Nat) (b0 : ToNormal) : Serves (callbacks F) (fun _ => True) (OutLe b0) := by
  refine ⟨fun p c b s hb _ => ?_, fun p c b hb => ?_⟩
  · have ho := fun b' a => obeys F p c b b' a s
    have h1 : ((callbacks F).find p c b).1.d = b.d := (find_alike F p c b).2.1
    have h2 : ∀ a, ((callbacks F).find p c b).2 = some a → SmoothAct a := (find_alike F p c b).2.2
    rcases hf : (callbacks F).find p c b with ⟨b', _ | a⟩ <;> rw [hf] at h1 h2
    · simp only [OutLe] at hb ⊢
      simp only at h1
      rw [h1]; exact hb
    · refine ⟨ho b' a hf, ?_⟩
      have h3 := (h2 a rfl s b').2
      simp only at h1
      rw [h1] at h3
      exact List.IsPrefix.trans hb h3
  · have h1 : ((callbacks F).findEnd p c b).1 = b := (findEnd_smooth p c b).2.1
    have h2 : ∀ a, ((callbacks F).findEnd p c b).2 = some a → Smooth a := (findEnd_smooth p c b).2.2
    rcases hf : (callbacks F).findEnd p c b with ⟨b', _ | a⟩ <;> rw [hf] at h1 h2
    · simp only at h1
      rw [h1]; exact hb
    · simp only at h1
      subst h1
      exact ⟨hb, List.IsPrefix.trans hb (h2 a rfl b').2⟩

theorem adds (R : Reader) (F : Nat) : Adds (callbacks F) R F OutLe :=
  ⟨fun _ => List.prefix_rfl, fun _ _ _ => List.IsPrefix.trans, only_adds F, fun p c b _ hr act hact => find_apart p c b act hact _ hr _⟩

end ToNormal

/-- **C110, partial** (readers whose data does not end with a digit). Full statement: for every input; whether the digit matters here is open. What `convert_ddb_to_normal` writes for an input
is the beginning of what it writes for any longer input, whether it succeeds or not; the destination may fail. -/
theorem C110_to_normal_partial (turns fuel : Nat) (reader R : Reader) (d : Dest) (rjiterBuffer contextBuffer : Bytes)
    (pretty unbuffered asWrapper : Bool) (h8 : 8 ≤ rjiterBuffer.length) (hf : 2 * reader.size + 2 ≤ fuel) (hd : NoDigit reader) :
    (convertDdbToNormal turns fuel reader d rjiterBuffer contextBuffer pretty unbuffered asWrapper).1.d.w.out <+:
      (convertDdbToNormal turns fuel (reader ++ R) d rjiterBuffer contextBuffer pretty unbuffered asWrapper).1.d.w.out := by
  unfold convertDdbToNormal
  rcases U8Pool.new contextBuffer 68 with pool | _ | _
  · have h := scan_apart (ToNormal.adds R fuel) (opt := ⟨[], false⟩) rfl turns
      (st := ⟨.new reader rjiterBuffer, .new d pretty unbuffered asWrapper, pool⟩) (primed_new h8 hf hd)
    rw [show (St.more R ⟨.new reader rjiterBuffer, .new d pretty unbuffered asWrapper, pool⟩ : St ToNormal) =
      ⟨.new (reader ++ R) rjiterBuffer, .new d pretty unbuffered asWrapper, pool⟩ from rfl] at h
    simp only
    generalize Scan.scan turns fuel (ToNormal.callbacks fuel) ⟨[], false⟩
      ⟨.new reader rjiterBuffer, .new d pretty unbuffered asWrapper, pool⟩ = x at h ⊢
    generalize Scan.scan turns fuel (ToNormal.callbacks fuel) ⟨[], false⟩
      ⟨.new (reader ++ R) rjiterBuffer, .new d pretty unbuffered asWrapper, pool⟩ = y at h ⊢
    rcases x with ⟨st1, r1⟩
    rcases y with ⟨st2, r2⟩
    cases r1 <;> cases r2 <;> exact h
  · exact List.prefix_rfl
  · exact List.prefix_rfl

/-- **C110, partial**, for complete items that have arrived: whatever follows (more items, broken ones, or a failure), all that is to be written for
them has been written first. The hypotheses are those of C49. -/
theorem C110_to_normal_docs_partial (M : Mode) (L F : Nat) (reader R : Reader) (rb cb : Bytes) (out : Bytes) (pretty unbuffered asWrapper : Bool)
    (ds : DDocs) (tail : Bytes) (hi : Inv M L F (.new reader rb)) (hcb : 277 ≤ cb.length) (hr : reader.pending = Docs.text ds.json tail)
    (hm : Docs.Meets (rules M L) ds.json tail) (hf : Docs.Fit ⟨cb.length - 272, 68, 68⟩ [nameTop] ds.json)
    (hn : ∀ d ∈ ds, d.2.members.Names (· ≠ nameArray)) (ho : ∀ d ∈ ds, d.2.members.Orderly) (hw : ∀ d ∈ ds, d.2.Reads asWrapper)
    (hd : NoDigit reader) (turns : Nat) (ht : ds.length + reader.pending.length + 1 ≤ turns) :
    out ++ DDocs.plain pretty ds <+:
      (convertDdbToNormal turns F (reader ++ R) ⟨⟨out, []⟩, []⟩ rb cb pretty unbuffered asWrapper).1.d.w.out := by
  have h := C110_to_normal_partial turns F reader R ⟨⟨out, []⟩, []⟩ rb cb pretty unbuffered asWrapper hi.eight hi.fuel hd
  rw [(C49_output_partial M L F reader rb cb out pretty unbuffered asWrapper ds tail hi hcb hr hm hf hn ho hw turns ht).2] at h
  exact h

/-- What is written for a line and a half (see `exLines` for the hypotheses), and when the input goes on in three ways: well, with something wrong, and
with a failure. -/
example :
    (convertDdbToNormal 60 200 (piece exLines) ⟨⟨[], []⟩, []⟩ (List.replicate 60 0) (List.replicate 600 0) false false true).1.d.w.out =
      "{\"a\":7}\n{\"b\":\"".toUTF8.toList ∧
    (convertDdbToNormal 60 200 (piece exLines ++ piece "y\"}}}".toUTF8.toList) ⟨⟨[], []⟩, []⟩ (List.replicate 60 0) (List.replicate 600 0)
      false false true).1.d.w.out = "{\"a\":7}\n{\"b\":\"xy\"}\n".toUTF8.toList ∧
    (convertDdbToNormal 60 200 (piece exLines ++ piece "y\"]".toUTF8.toList) ⟨⟨[], []⟩, []⟩ (List.replicate 60 0) (List.replicate 600 0)
      false false true).1.d.w.out = "{\"a\":7}\n{\"b\":\"xy\"".toUTF8.toList ∧
    (convertDdbToNormal 60 200 (piece exLines ++ [.fail 3]) ⟨⟨[], []⟩, []⟩ (List.replicate 60 0) (List.replicate 600 0)
      false false true).1.d.w.out = "{\"a\":7}\n{\"b\":\"".toUTF8.toList := by
  refine ⟨by decide +kernel, by decide +kernel, by decide +kernel, by decide +kernel⟩

theorem convert_more (turns F : Nat) (args : Args) (reader R : Reader) (d : Dest) (ha : args.toDdb = false) (hf : 2 * reader.size + 2 ≤ F)
    (hd : NoDigit reader) : (convert turns F args reader d).1.w.out <+: (convert turns F args (reader ++ R) d).1.w.out := by
  unfold convert
  rw [ha, if_neg nofun, if_neg nofun]
  exact C110_to_normal_partial turns F reader R d lookBuffer nameBuffer args.pretty args.unbuffered true (by rw [lookBuffer_length]; decide) hf hd

/-- **C110, partial** (as above, and the channel accepts what is written), for `ddb_convert from-ddb`: what has reached the output when the input ends is
the beginning of what reaches it when the input goes on. Without `--unbuffered` this is said if the longer input is converted without an error: the tool
loses what it holds back when it fails (C76). -/
theorem C110_cli_partial (turns F : Nat) (args : Args) (reader R : Reader) (c c1 c2 : Chan) (r1 r2 : Conv) (ha : args.toDdb = false)
    (hf : 2 * reader.size + 2 ≤ F) (hd : NoDigit reader) (hs : c.Sound) (h1 : Runs turns F args reader c c1 r1)
    (h2 : Runs turns F args (reader ++ R) c c2 r2) (hu : args.unbuffered = true ∨ r2 = .ok) : c1.out <+: c2.out := by
  cases hb : args.unbuffered
  · obtain ⟨o1, l1, h3, h4, -, -⟩ := C76_buffered_partial turns F args reader c c1 r1 hb hs h1
    obtain ⟨o2, l2, h5, h6, -, h7⟩ := C76_buffered_partial turns F args (reader ++ R) c c2 r2 hb hs h2
    have hok : r2 = .ok := by
      rcases hu with h | h
      · rw [hb] at h; cases h
      · exact h
    rw [h7 hok, List.append_nil] at h6
    have h := convert_more turns F args reader R ⟨⟨[], []⟩, []⟩ ha hf hd
    have e1 : (convert turns F args reader ⟨⟨[], []⟩, []⟩).1.w.out = o1 := congrArg Prod.fst h3
    have e2 : (convert turns F args (reader ++ R) ⟨⟨[], []⟩, []⟩).1.w.out = o2 := congrArg Prod.fst h5
    rw [e1, e2] at h
    rw [h6]
    have h8 : c1.out <+: c.out ++ o1 := ⟨l1, h4⟩
    exact h8.trans ((List.prefix_append_right_inj _).2 h)
  · obtain ⟨ws, plan, rs, d, h3, -, h4, h5⟩ := h1
    obtain ⟨ws', plan', rs', d', h6, -, h7, h8⟩ := h2
    rw [if_pos hb] at h3 h5 h6 h8
    obtain ⟨a, h5, rfl⟩ := h5
    obtain ⟨a', h8, rfl⟩ := h8
    obtain ⟨g1, g2⟩ := feed_chan ws c
    obtain ⟨g3, g4⟩ := feed_chan ws' c
    rw [h5] at g1 g2
    rw [h8] at g3 g4
    obtain rfl := h4.nil (g2 hs).1
    obtain rfl := h7.nil (g4 hs).1
    have h := convert_more turns F args reader R ⟨⟨[], []⟩, c.flushes⟩ ha hf hd
    rw [h3, h6] at h
    show a.out <+: a'.out
    rw [g1, g3]
    exact (List.prefix_append_right_inj _).2 h

/-- There are such runs, for every input. -/
example (turns F : Nat) (reader R : Reader) : ∃ c1 c2 r1 r2, Runs turns F ⟨false, false, false, true⟩ reader ⟨[], [], []⟩ c1 r1 ∧
    Runs turns F ⟨false, false, false, true⟩ (reader ++ R) ⟨[], [], []⟩ c2 r2 := by
  have hs : (⟨[], [], []⟩ : Chan).Sound := nofun
  obtain ⟨c1, h1⟩ := runs_sound turns F ⟨false, false, false, true⟩ reader ⟨[], [], []⟩ hs rfl
  obtain ⟨c2, h2⟩ := runs_sound turns F ⟨false, false, false, true⟩ (reader ++ R) ⟨[], [], []⟩ hs rfl
  exact ⟨c1, c2, _, _, h1, h2⟩

/-- **C110, the false part for `convert_normal_to_ddb`, strings.** Full statement: as `C110_to_normal_partial`. It is false of the code for a string that
is a document: `on_root_literal` (normal_to_ddb.rs lines 118-141) writes its final newline also if the string is not complete. For `"ab` the output is
`{"S":"a` and a newline; for `"abc"` there is no newline at that place. -/
theorem C110_to_ddb_string : ∃ (reader R : Reader) (buf : Bytes), (reader ++ R).Clean ∧ NoDigit reader ∧ 40 ≤ buf.length ∧
    2 * (reader ++ R).size + 2 ≤ 100 ∧ reader.pending = "\"ab".toUTF8.toList ∧ R.pending = "c\"".toUTF8.toList ∧
    (convertNormalToDdb 40 100 reader ⟨⟨[], []⟩, []⟩ buf (List.replicate 600 0) false false true).1.d.w.out = "{\"S\":\"a\n".toUTF8.toList ∧
    (convertNormalToDdb 40 100 (reader ++ R) ⟨⟨[], []⟩, []⟩ buf (List.replicate 600 0) false false true).1.d.w.out =
      "{\"S\":\"abc\"}\n".toUTF8.toList ∧
    ¬ (convertNormalToDdb 40 100 reader ⟨⟨[], []⟩, []⟩ buf (List.replicate 600 0) false false true).1.d.w.out <+:
      (convertNormalToDdb 40 100 (reader ++ R) ⟨⟨[], []⟩, []⟩ buf (List.replicate 600 0) false false true).1.d.w.out := by
  refine ⟨piece "\"ab".toUTF8.toList, piece "c\"".toUTF8.toList, List.replicate 40 0, by decide +kernel, ?_, by decide, by decide +kernel,
    by decide +kernel, by decide +kernel, by decide +kernel, by decide +kernel, by decide +kernel⟩
  intro c hc
  have : (piece "\"ab".toUTF8.toList).pending.getLast? = some 98 := by decide +kernel
  rw [this] at hc
  injection hc with hc
  subst hc
  intro h
  exact absurd h.2 (by decide)

/-- **C110, the false part for `convert_normal_to_ddb`, words.** The result of `known_bool` is ignored (normal_to_ddb.rs lines 239-278), so that `tru` at
the end of the input is written as a value, and it is not consumed: it is written again in every turn. For `true` it is written once. -/
theorem C110_to_ddb_word : ∃ (reader R : Reader) (buf : Bytes), (reader ++ R).Clean ∧ NoDigit reader ∧ 40 ≤ buf.length ∧
    2 * (reader ++ R).size + 2 ≤ 100 ∧ reader.pending = "tru".toUTF8.toList ∧ R.pending = "e ".toUTF8.toList ∧
    (convertNormalToDdb 2 100 reader ⟨⟨[], []⟩, []⟩ buf (List.replicate 600 0) false false true).1.d.w.out =
      "{\"BOOL\":true}\n{\"BOOL\":true}\n".toUTF8.toList ∧
    (convertNormalToDdb 2 100 (reader ++ R) ⟨⟨[], []⟩, []⟩ buf (List.replicate 600 0) false false true).1.d.w.out =
      "{\"BOOL\":true}\n".toUTF8.toList ∧
    (convertNormalToDdb 2 100 (reader ++ R) ⟨⟨[], []⟩, []⟩ buf (List.replicate 600 0) false false true).2 = .ok := by
  refine ⟨piece "tru".toUTF8.toList, piece "e ".toUTF8.toList, List.replicate 40 0, by decide +kernel, ?_, by decide, by decide +kernel,
    by decide +kernel, by decide +kernel, by decide +kernel, by decide +kernel, by decide +kernel⟩
  intro c hc
  have : (piece "tru".toUTF8.toList).pending.getLast? = some 117 := by decide +kernel
  rw [this] at hc
  injection hc with hc
  subst hc
  intro h
  exact absurd h.2 (by decide)

end Verif.Ddb
