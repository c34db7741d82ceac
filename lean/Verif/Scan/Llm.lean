import Verif.Scan.Pick
import Verif.Scan.BadProps

/-!
# Property C102: the converter of LLM streams in the README

`scan_llm_output` of scan_json/README.md (lines 92-177, a documentation test of the crate): a client of `scan` that writes the
text of the `content` strings of a feed of server-sent events, and marks the beginning and the end of each `message`.
-/

namespace Verif.Scan

open Verif.RJiter Verif.RJiter.Jiter RJ

/-! ## The client -/

/-- `content` -/
def nameContent : Bytes := [99, 111, 110, 116, 101, 110, 116]
/-- `message` -/
def nameMessage : Bytes := [109, 101, 115, 115, 97, 103, 101]
/-- `(new message)` and a newline. -/
def newMessage : Bytes := [40, 110, 101, 119, 32, 109, 101, 115, 115, 97, 103, 101, 41, 10]

example : nameContent = "content".toUTF8.toList ∧ nameMessage = "message".toUTF8.toList ∧ newMessage = "(new message)\n".toUTF8.toList := by
  decide +kernel

/-- `on_begin_message`, README.md lines 101-104. The writer is a `Vec`, which does not fail. -/
def onBeginMessage : Action Bytes := fun s out => ((s, out ++ newMessage), .op .none)

/-- `on_content`, README.md lines 106-117. -/
def onContent (fuel : Nat) : Action Bytes := fun s out =>
  match s.peek fuel with
  | (s, .ok _) =>
    match s.writeLongBytes fuel ⟨out, []⟩ with
    | ((s, w), .ok _) => ((s, w.out), .op .valueIsConsumed)
    | ((s, w), .err _) => ((s, w.out), .op (.error "RJiter error"))
    | ((s, w), .panic) => ((s, w.out), .panic)
    | ((s, w), .diverge) => ((s, w.out), .diverge)
  | (s, .err _) => ((s, out), .op (.error "RJiter error"))
  | (s, .panic) => ((s, out), .panic)
  | (s, .diverge) => ((s, out), .diverge)

/-- `on_end_message`, README.md lines 119-122. -/
def onEndMessage : EndAction Bytes := fun out => (out ++ [10], none)

/-- `find_action` and `find_end_action`, README.md lines 130-145. -/
def llm (fuel : Nat) : Callbacks Bytes where
  find p c out := (out,
    if iterMatch [nameContent] p c.path then some (onContent fuel)
    else if iterMatch [nameMessage] p c.path then some onBeginMessage else none)
  findEnd p c out := (out, if iterMatch [nameMessage] p c.path then some onEndMessage else none)

/-! ## What it should write -/

mutual
/-- The text of the contents, as it is written in the document, and around each message the marks. Which level the keys are
on does not matter. -/
def Val.chat : Val → Bytes
  | .atom _ => []
  | .arr _ items => items.chat
  | .obj _ members => members.chat
@[inherit_doc Val.chat]
def Items.chat : Items → Bytes
  | .nil => []
  | .cons _ v _ more => v.chat ++ more.chat
@[inherit_doc Val.chat]
def Members.chat : Members → Bytes
  | .nil => []
  | .cons _ k _ _ v _ more =>
    (if k = nameContent then v.text.tail.dropLast
     else if k = nameMessage then newMessage ++ v.chat ++ [10]
     else v.chat) ++ more.chat
end

/-- All documents. -/
def Docs.chat : Docs → Bytes
  | [] => []
  | (_, v) :: ds => v.chat ++ Docs.chat ds

/-- A string. -/
def Val.IsStr : Val → Prop
  | .atom tok => tok.head? = some 34
  | _ => False

mutual
/-- The contents are strings. -/
def Val.Chats : Val → Prop
  | .atom _ => True
  | .arr _ items => items.Chats
  | .obj _ members => members.Chats
@[inherit_doc Val.Chats]
def Items.Chats : Items → Prop
  | .nil => True
  | .cons _ v _ more => v.Chats ∧ more.Chats
@[inherit_doc Val.Chats]
def Members.Chats : Members → Prop
  | .nil => True
  | .cons _ k _ _ v _ more => (if k = nameContent then v.IsStr else v.Chats) ∧ more.Chats
end

/-! ## The client, failing where it is not known what happens -/

/-- `on_content`, for strings only. -/
def onContentG (fuel : Nat) : Action Bytes := fun s out =>
  match s.peek fuel with
  | (_, .ok 34) => onContent fuel s out
  | _ => ((s, out), .op (.error ""))

def llmG (fuel : Nat) : Callbacks Bytes where
  find p c out := (out,
    if iterMatch [nameContent] p c.path then some (onContentG fuel)
    else if iterMatch [nameMessage] p c.path then some onBeginMessage else none)
  findEnd p c out := (out, if iterMatch [nameMessage] p c.path then some onEndMessage else none)

/-- The same in terms of documents. -/
def llmH : Handler Bytes where
  start p path v out :=
    if iterMatch [nameContent] p path then
      if v.text.head? = some 34 then (out ++ v.text.tail.dropLast, .valueIsConsumed) else (out, .error "")
    else if iterMatch [nameMessage] p path then (out ++ newMessage, .none) else (out, .none)
  finish p path out := if iterMatch [nameMessage] p path then (out ++ [10], none) else (out, none)

theorem match_key {name k : Bytes} {path : List Bytes} : iterMatch [name] .none (k :: path) = decide (name = k) := by
  simp [iterMatch, matchNames]

theorem match_other {name : Bytes} {p : Pseudo} {path : List Bytes} (h : p ≠ .none) (hn : name = nameContent ∨ name = nameMessage) :
    iterMatch [name] p path = false := by
  rcases hn with rfl | rfl <;> cases p <;> first | exact absurd rfl h | rfl

variable {M : Mode} {L F : Nat}

theorem val_first {v : Val} (h : v.Meets (rules M L)) : ∃ c r, v.text = c :: r ∧ ¬ Space c ∧ c ≠ 12 := by
  cases v with
  | atom tok =>
    obtain ⟨c, r, e, h1, h2, _⟩ := atom_first (tok := tok) h
    exact ⟨c, r, e, h1, h2⟩
  | arr w is => exact ⟨91, w ++ is.text ++ [93], by simp [Val.text], by unfold Space; decide, by decide⟩
  | obj w ms => exact ⟨123, w ++ ms.text ++ [125], by simp [Val.text], by unfold Space; decide, by decide⟩

theorem val_string {v : Val} (h : v.Meets (rules M L)) {r : Bytes} (e : v.text = 34 :: r) :
    ∃ body, v = .atom (34 :: (body ++ [34])) ∧ RawBody body ∧ M.str body := by
  cases v with
  | atom tok =>
    have h' : IsAtom (fun n => n.length + 1 ≤ L) M.str tok := h
    have e : tok = 34 :: r := e
    cases h' with
    | null => simp at e
    | true => simp at e
    | false => simp at e
    | number _ hn _ =>
      obtain ⟨c, r', e', hc⟩ := number_first hn
      rw [e] at e'
      injection e' with e1 _
      subst e1
      exact absurd hc (by decide)
    | string body hb hs => exact ⟨body, rfl, hb, hs⟩
  | arr w is => simp [Val.text] at e
  | obj w ms => simp [Val.text] at e

theorem llmG_implements : Implements (llmG F) llmH (Inv M L F) (rules M L) := by
  refine ⟨?_, ?_⟩
  · intro p path v b s ws t hi h1 h2 h3 h4 h5 h6 h7
    simp only [llmG, llmH]
    by_cases hc : iterMatch [nameContent] p path = true
    · simp only [hc, if_true, onContentG]
      obtain ⟨c, r, e, hc1, hc2⟩ := val_first h2
      obtain ⟨s1, e1, hi1, hm1⟩ := hi.peek (ws := ws) (c := c) (t := r ++ t) (by rw [h6, e]; rfl) h3 hc1 hc2
      by_cases h34 : c = 34
      · subst h34
        obtain ⟨body, rfl, hb, hs⟩ := val_string h2 e
        have hr1 : s1.rest = 34 :: (body ++ 34 :: t) := by
          rw [hm1.rest, h6, List.drop_left]; simp [Val.text]
        obtain ⟨s2, w', e2, ho, hi2, hm2, hj2⟩ := hi1.string ⟨b, []⟩ hb hs rfl hr1
        simp only [e1, onContent, e2, ho]
        refine ⟨?_, hi2, ?_, hj2⟩
        · simp [Val.text]
        · have := hm1.trans hm2
          simpa [Val.text] using this
      · have hne : v.text.head? ≠ some 34 := by rw [e]; simpa using h34
        have e3 : (match ((s1, .ok c) : RJ × Res Byte) with
            | (_, .ok 34) => onContent F s b
            | _ => ((s, b), .op (.error ""))) = ((s, b), .op (.error "")) := by
          split
          · rename_i h; simp only [Prod.mk.injEq, Res.ok.injEq] at h; exact absurd h.2 h34
          · rfl
        rw [if_neg hne, e1, e3]
    · simp only [hc, Bool.false_eq_true, if_false]
      by_cases hm : iterMatch [nameMessage] p path = true
      · simp only [hm, if_true, onBeginMessage]
        exact ⟨trivial, hi, ⟨0, Nat.zero_le _, .refl hi.sync⟩, fun h => ⟨h, trivial⟩⟩
      · simp only [hm, Bool.false_eq_true, if_false]
  · intro p path b
    simp only [llmG, llmH]
    by_cases hm : iterMatch [nameMessage] p path = true
    · simp only [hm, if_true, onEndMessage]
    · simp only [hm, Bool.false_eq_true, if_false]

theorem llm_until : Until (llmG F) (llm F) (fun a b => a = b) (fun _ _ => True) := by
  refine ⟨?_, ?_, ?_⟩
  · rintro p c b _ rfl
    refine ⟨rfl, ?_⟩
    simp only [llmG, llm]
    by_cases hc : iterMatch [nameContent] p c.path = true
    · simp only [hc, if_true]
      intro s
      unfold onContentG
      split
      · exact .inl ⟨rfl, rfl, rfl⟩
      · exact .inr ⟨⟨_, rfl⟩, trivial⟩
    · simp only [hc, Bool.false_eq_true, if_false]
      by_cases hm : iterMatch [nameMessage] p c.path = true
      · simp only [hm, if_true]
        exact fun s => .inl ⟨rfl, rfl, rfl⟩
      · simp only [hm, Bool.false_eq_true, if_false]
  · rintro p c b _ rfl
    refine ⟨rfl, ?_⟩
    simp only [llmG, llm]
    by_cases hm : iterMatch [nameMessage] p c.path = true
    · simp only [hm, if_true]
      exact .inl ⟨trivial, trivial⟩
    · simp only [hm, Bool.false_eq_true, if_false]
  · intro b
    refine ⟨fun p c b _ => ⟨trivial, fun a ha s => ?_⟩, fun p c b _ => ⟨trivial, fun a ha => ?_⟩⟩
    · rcases a s _ with ⟨⟨s1, b2⟩, (_ | _ | m) | _ | _⟩ <;> trivial
    · rcases a _ with ⟨b2, _ | m⟩
      · trivial
      · exact fun _ => trivial

/-! ## Over the documents -/

theorem llm_around {p : Pseudo} {path : List Bytes} {v : Val} {inner : Bytes → Out Bytes} {out : Bytes} (h : p ≠ .none) :
    llmH.around p path v inner out = inner out := by
  simp [Handler.around, llmH, match_other h]

theorem llm_end {p : Pseudo} {path : List Bytes} {out : Bytes} (h : p ≠ .none) : llmH.end p path out = .done out := by
  simp [Handler.end, llmH, match_other h]

theorem llm_start_message {path : List Bytes} {v : Val} {out : Bytes} :
    llmH.start .none (nameMessage :: path) v out = (out ++ newMessage, .none) := by
  have hne : nameContent ≠ nameMessage := by decide
  simp [llmH, match_key, hne]

theorem llm_end_message {path : List Bytes} {out : Bytes} : llmH.end .none (nameMessage :: path) out = .done (out ++ [10]) := by
  simp [Handler.end, llmH, match_key]

theorem llm_start_other {k : Bytes} {path : List Bytes} {v : Val} {out : Bytes} (h1 : k ≠ nameContent) (h2 : k ≠ nameMessage) :
    llmH.start .none (k :: path) v out = (out, .none) := by
  simp [llmH, match_key, Ne.symm h1, Ne.symm h2]

theorem llm_end_other {k : Bytes} {path : List Bytes} {out : Bytes} (h : k ≠ nameMessage) : llmH.end .none (k :: path) out = .done out := by
  simp [Handler.end, llmH, match_key, Ne.symm h]

mutual
theorem Val.scan_chat {R : Room} : ∀ (v : Val) (path : List Bytes) (out : Bytes), v.Fit R path → v.Chats →
    v.scan llmH R path out = .done (out ++ v.chat)
  | .atom tok, path, out, _, _ => by simp [Val.scan, Val.chat, llm_around]
  | .arr w is, path, out, hf, hp => by
    simp only [Val.scan, Val.chat]
    rw [llm_around (p := .array) (by decide), if_pos hf.1, Items.scan_chat is _ out hf.2 hp]
    exact llm_end (p := .array) (path := path) (by decide)
  | .obj w ms, path, out, hf, hp => by
    simp only [Val.scan, Val.chat]
    rw [llm_around (p := .object) (by decide), Members.scan_chat ms _ out hf hp]
    exact llm_end (p := .object) (path := path) (by decide)
theorem Items.scan_chat {R : Room} : ∀ (is : Items) (path : List Bytes) (out : Bytes), is.Fit R path → is.Chats →
    is.scan llmH R path out = .done (out ++ is.chat)
  | .nil, _, out, _, _ => by simp [Items.scan, Items.chat]
  | .cons _ v _ is, path, out, hf, hp => by
    simp only [Items.scan, Items.chat, Val.scan_chat v path out hf.1 hp.1, Out.bind, Items.scan_chat is path _ hf.2 hp.2, List.append_assoc]
theorem Members.scan_chat {R : Room} : ∀ (ms : Members) (path : List Bytes) (out : Bytes), ms.Fit R path → ms.Chats →
    ms.scan llmH R path out = .done (out ++ ms.chat)
  | .nil, _, out, _, _ => by simp [Members.scan, Members.chat]
  | .cons _ k _ _ v _ ms, path, out, hf, hp => by
    simp only [Members.scan, Members.chat]
    rw [if_pos hf.1]
    have hv : ((llmH.around .none (k :: path) v (v.scan llmH R (k :: path)) out).bind (llmH.end .none (k :: path))) =
        .done (out ++ (if k = nameContent then v.text.tail.dropLast
          else if k = nameMessage then newMessage ++ v.chat ++ [10] else v.chat)) := by
      have hp1 := hp.1
      by_cases hk : k = nameContent
      · subst hk
        rw [if_pos rfl] at hp1 ⊢
        have h34 : v.text.head? = some 34 := by
          cases v with
          | atom tok => exact hp1
          | arr w is => exact hp1.elim
          | obj w ms => exact hp1.elim
        have hne : nameMessage ≠ nameContent := by decide
        simp [Handler.around, Handler.end, llmH, match_key, h34, Out.bind, hne]
      · rw [if_neg hk] at hp1 ⊢
        have ih := fun out => Val.scan_chat v (k :: path) out hf.2.1 hp1
        by_cases hk' : k = nameMessage
        · subst hk'
          simp only [Handler.around, llm_start_message, ih, Out.bind, llm_end_message, if_true, List.append_assoc]
        · simp only [Handler.around, llm_start_other hk hk', ih, Out.bind, llm_end_other hk', hk', if_false]
    rw [hv]
    simp only [Out.bind, Members.scan_chat ms path _ hf.2.2 hp.2, List.append_assoc]
end

theorem Docs.scan_chat {R : Room} : ∀ (ds : Docs) (path : List Bytes) (out : Bytes), Docs.Fit R path ds → (∀ d ∈ ds, d.2.Chats) →
    Docs.scan llmH R path ds out = .done (out ++ Docs.chat ds)
  | [], _, out, _, _ => by simp [Docs.scan, Docs.chat]
  | (_, v) :: ds, path, out, hf, hp => by
    simp only [Docs.scan, Docs.chat, Val.scan_chat v path out hf.1 (hp _ List.mem_cons_self), Out.bind,
      Docs.scan_chat ds path _ hf.2 (fun d hd => hp d (List.mem_cons_of_mem _ hd)), List.append_assoc]

/-! ## C102 -/

/-- **C102, partial.** Full statement: for every feed and chunking; it is false as C31 and C40 are, and because a `content` that is
not a string is not noticed (`C102_null`). Proved in the situations described by a mode, for feeds of documents with tokens between
them, whose contents are strings: the example of the README writes the texts of the contents, in their order and as they stand in
the documents, with the marks around the messages, and nothing else; and it reads all of the input. The strings may be of any
length, also longer than the buffer. -/
theorem C102_llm_partial (M : Mode) (L F : Nat) (opt : Options) (hopt : opt.stopEarly = false) (hL : ∀ u ∈ opt.sseTokens, u.length ≤ L)
    (R : Room) (fs : Feed) (tail : Bytes) (st : St Bytes) (hi : Inv M L F st.rj) (hrd : Ready st.rj) (hst : Holds st.pool R [])
    (hfit : R.Fits [] nameTop) (hfit2 : R.Fits [nameTop] nameArray)
    (hm : Feed.Meets (rules M L) opt.sseTokens M.loose True tail false fs) (ht : Spaces tail) (hr : st.rj.rest = Feed.text fs tail)
    (hfits : Docs.Fit R [nameTop] fs.docs) (hs : ∀ d ∈ fs.docs, d.2.Chats) :
    ∃ st', (∀ n, fs.length + st.rj.rest.length + 1 ≤ n → scan n F (llm F) opt st = (st', .ok ())) ∧
      Ended st.rj st.rj.rest.length (st.baton ++ Docs.chat fs.docs) R [(.top, nameTop)] st' := by
  obtain ⟨st', h1, h2⟩ := C40_silent_partial M L F (llmG F) llmH opt R llmG_implements hopt hL (fun _ => rfl) (fun _ => rfl) (fun _ => rfl)
    (fun _ => rfl) fs tail st hi hrd hst hfit hfit2 hm ht hr _ (Docs.scan_chat fs.docs [nameTop] st.baton hfits hs)
  refine ⟨st', fun n hn => ?_, h1⟩
  have := scan_led (llm_until (F := F)) n F opt st.rj st.baton st.baton st.pool rfl
  rw [show (⟨st.rj, st.baton, st.pool⟩ : St Bytes) = st from rfl, h2 n hn] at this
  rcases this with ⟨g, e1, e2⟩ | ⟨⟨m, i, e1⟩, _⟩
  · rw [e1, ← e2]
  · exact absurd e1 (by simp [SRes.error])

/-- `{"message":{"content":"x"}}` -/
def exMessage : Val := .obj [] (.cons [] nameMessage [] [] (.obj [] (.cons [] nameContent [] [] (.atom [34, 120, 34]) [] .nil)) [] .nil)

/-- `data: {"message":{"content":"x"}}⏎data: [DONE]⏎` -/
def exLlm : Feed := [([], .token exData), ([32], .doc exMessage), ([10], .token exData), ([32], .boxed [] exDone [])]

def exLlmSt : St Bytes := ⟨.new [.data 100 (Feed.text exLlm [10]).tail] (List.replicate 60 0), [], exPool⟩

theorem raw_plain : ∀ (body : Bytes), (∀ c ∈ body, 32 ≤ c.toNat ∧ c.toNat < 128 ∧ c ≠ 34 ∧ c ≠ 92) → RawBody body
  | [], _ => .nil
  | c :: r, h => by
    have hc := h c (by simp)
    have key : ∀ n < 128, (n ≠ 34 ∧ n ≠ 92 ∧ 32 ≤ n) → enc (Char.ofNat n) = [UInt8.ofNat n] ∧ (32 ≤ (Char.ofNat n).toNat ∧ Char.ofNat n ≠ '"' ∧ Char.ofNat n ≠ '\\') := by
      decide +kernel
    obtain ⟨h1, h2⟩ := key c.toNat hc.2.1 ⟨fun e => hc.2.2.1 (UInt8.toNat_inj.1 e), fun e => hc.2.2.2 (UInt8.toNat_inj.1 e), hc.1⟩
    have := RawBody.char _ r h2 (raw_plain r fun x hx => h x (by simp [hx]))
    rw [h1] at this
    simpa using this

theorem exLlm_meets : Feed.Meets (rules wholeMode 11) [exData, exDone] wholeMode.loose True [10] false exLlm := by
  have h10 : Spaces [10] := by intro c hc; simp at hc; subst hc; unfold Space; decide
  have h32 : Spaces [32] := by intro c hc; simp at hc; subst hc; unfold Space; decide
  have h0 : Spaces [] := by intro c hc; simp at hc
  refine ⟨h0, ⟨_, _, rfl, alien_d.1⟩, ⟨[], [exDone], rfl, by simp, by simp⟩, h32, ?_, trivial, trivial,
    fun _ => .inl trivial, h10, ⟨_, _, rfl, alien_d.1⟩, ⟨[], [exDone], rfl, by simp, by simp⟩, trivial, h32, h0, h0,
    ⟨_, _, rfl, alien_d.2, by decide⟩, ⟨[exData], [], rfl, ?_, by simp⟩, trivial⟩
  · refine ⟨h0, h0, ⟨raw_plain _ (by decide), by decide⟩, h0, h0, ⟨h0, h0, ⟨raw_plain _ (by decide), by decide⟩, h0, h0, ?_, trivial, h0, trivial⟩, trivial, h0, trivial⟩
    exact .string [120] raw_x trivial
  · intro u hu
    simp only [List.mem_cons, List.not_mem_nil, or_false] at hu
    subst hu
    decide

example : (∀ u ∈ [exData, exDone], u.length ≤ 11) ∧ Inv wholeMode 11 200 exLlmSt.rj ∧ Ready exLlmSt.rj ∧ Holds exLlmSt.pool exRoom [] ∧
    exRoom.Fits [] nameTop ∧ exRoom.Fits [nameTop] nameArray ∧
    Feed.Meets (rules wholeMode 11) [exData, exDone] wholeMode.loose True [10] false exLlm ∧ exLlmSt.rj.rest = Feed.text exLlm [10] ∧
    Docs.Fit exRoom [nameTop] exLlm.docs ∧ (∀ d ∈ exLlm.docs, d.2.Chats) :=
  ⟨by decide, whole_new _ _ 11 200 trivial (by decide) (by decide) (by decide) (by decide), ready_new _ _, exPool_holds, by decide, by decide,
    exLlm_meets, by decide, ⟨⟨by decide, ⟨by decide, trivial, trivial⟩, trivial⟩, trivial⟩, by
      intro d hd
      simp only [exLlm, Feed.docs, List.mem_cons, List.not_mem_nil, or_false] at hd
      subst hd
      exact ⟨by rw [if_neg (by decide)]; exact ⟨by rw [if_pos rfl]; rfl, trivial⟩, trivial⟩⟩

/-- What comes out, with a buffer of 32 bytes as in the README, the input in one piece. -/
def exLlmRun (input : String) : St Bytes × SRes Unit :=
  scan 200 500 (llm 500) ⟨[exData, exDone], false⟩
    ⟨.new [.data (input.toUTF8.toList.headD 0) input.toUTF8.toList.tail] (List.replicate 32 0), [], exPool⟩

example :
    let r := exLlmRun "data: {\"message\":{\"content\":\"H\\n\"}}\n\ndata: {\"delta\":{\"content\":\"ello\"}}\n\ndata: DONE\n"
    r.1.baton = "(new message)\nH\\n\nello".toUTF8.toList ∧ r.2 = .ok () := by decide +kernel

/-- **C102, the false part**: `null` as content (as services send it with calls of tools) is not refused. The action calls
`write_long_bytes` without looking at what `peek` has returned, and `write_long_bytes` does not check that there is a string: it
takes the `n` for the opening quote, and copies `ull,`. Afterwards the document is read from the inside of a key on. -/
theorem C102_null : let r := exLlmRun "{\"content\":null,\"refusal\":1}"
    r.1.baton = "ull,".toUTF8.toList ∧ r.2 = .err (.rjiter ⟨.json .expectedObjectCommaOrEnd, 17⟩) := by decide +kernel

end Verif.Scan
