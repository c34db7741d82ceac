import Verif.Scan.Cut
import Verif.Scan.IdtProps

/-!
# C34: a truncated document is never accepted

`Careful` (Cut.lean) describes callbacks that do not run ahead of the input. Instances: callbacks that leave the parser
alone, and the callbacks of `idtransform`.
-/

namespace Verif.Scan

open Verif.RJiter RJ Jiter
open Verif.U8Pool (Pool PRes PoolError)

variable {β : Type} {ascii : Bool} {F : Nat} {y : Bytes}

theorem Docs.text_append (ds : Docs) (b : Bytes) (v : Val) : Docs.text (ds ++ [(b, v)]) [] = Docs.text ds (b ++ v.text) := by
  induction ds with
  | nil => simp [Docs.text]
  | cons d ds ih => obtain ⟨b', v'⟩ := d; simp only [List.cons_append, Docs.text, ih]

theorem Docs.text_tail (ds : Docs) (t u : Bytes) : Docs.text ds (t ++ u) = Docs.text ds t ++ u := by
  induction ds with
  | nil => rfl
  | cons d ds ih => obtain ⟨b', v'⟩ := d; simp only [Docs.text, ih, List.append_assoc]

theorem cutDocs_append {Rs : Rules} {n : Nat} {b : Bytes} {v : Val} (hb : Spaces b) (hv : v.Meets Rs) (hn : ¬ v.IsNum) (hlen : n < v.text.length) :
    ∀ ds : Docs, (∀ d ∈ ds, Spaces d.1 ∧ d.2.Meets Rs ∧ ¬ d.2.IsNum) → CutDocs Rs n (ds ++ [(b, v)]) := by
  intro ds
  induction ds with
  | nil => intro _; exact ⟨hb, hv, hn, by simpa [Docs.text] using hlen, trivial⟩
  | cons d ds ih =>
    intro h
    obtain ⟨b', v'⟩ := d
    obtain ⟨h1, h2, h3⟩ := h (b', v') (by simp)
    refine ⟨h1, h2, h3, ?_, ih fun d hd => h d (by simp [hd])⟩
    have e : Docs.text (ds ++ [(b, v)]) [] = Docs.text ds b ++ v.text := by rw [Docs.text_append, Docs.text_tail]
    show n < (v'.text ++ Docs.text (ds ++ [(b, v)]) []).length
    rw [e]
    simp only [List.length_append]
    omega

/-- **C34, partial.** The input is a stream of documents `ds`, and `p`, a part of another document: `y` is missing. Then
`scan` does not succeed, for all chunkings, buffers of at least 8 bytes, and any contents of the context stack.

Missing: documents with a backslash in a string, unless all input is ASCII (false, `C34_cut_in_escape`); readers that
return an error; numbers at the top level (a part of a number can be a number). -/
theorem C34_truncated_partial (ascii : Bool) (F : Nat) (cb : Callbacks β) (K : β → Prop) (turns : Nat) (opt : Options) (st : St β)
    (R : Room) (l : List (Pos × Bytes)) (ds : Docs) (b : Bytes) (v : Val) (p y : Bytes)
    (hcb : Careful cb ascii F y K) (hsync : st.rj.Sync) (hclean : st.rj.b.reader.Clean) (hlen : 8 ≤ st.rj.b.buf.length)
    (hfuel : enoughFuel st.rj F) (hascii : ascii = true → AllBytes Ascii st.rj.b) (hl : Holds st.pool R l) (hK : K st.baton)
    (hsse : opt.sseTokens = []) (hstop : opt.stopEarly = false ∨ ds = [])
    (hds : ∀ d ∈ ds, Spaces d.1 ∧ d.2.Meets (cutRules ascii) ∧ ¬ d.2.IsNum)
    (hb : Spaces b) (hv : v.Meets (cutRules ascii)) (hn : ¬ v.IsNum) (hpy : v.text = p ++ y) (hp : p ≠ []) (hy : y ≠ [])
    (hr : st.rj.rest = Docs.text ds (b ++ p)) :
    (scan turns F cb opt st).2 ≠ .ok () := by
  have hc : CInv ascii F st.rj := ⟨hsync, hclean, hlen, Nat.zero_le _, Nat.zero_le _, hfuel, trivial, hascii, by simp⟩
  refine scan_cut (dl := ds ++ [(b, v)]) hcb hsse hy ⟨hc, hK, hl⟩ (cutDocs_append hb hv hn ?_ ds hds) (by simp) ?_ ?_
  · rw [hpy, List.length_append]
    have : p.length ≠ 0 := by simpa using hp
    omega
  · rcases hstop with h | h
    · exact .inl h
    · exact .inr (by rw [h]; rfl)
  · rw [hr, Docs.text_append, hpy, ← List.append_assoc, Docs.text_tail ds (b ++ p)]

/-- Callbacks that leave the parser alone. -/
def Quiet (cb : Callbacks β) : Prop :=
  ∀ p c b b' act, cb.find p c b = (b', some act) → ∀ s b1, (act s b1).1.1 = s ∧ (act s b1).2 ≠ .op .valueIsConsumed

theorem Quiet.careful {cb : Callbacks β} (h : Quiet cb) (ascii : Bool) (F : Nat) (y : Bytes) : Careful cb ascii F y (fun _ => True) := by
  refine ⟨fun _ _ _ _ => trivial, fun _ _ _ _ => trivial, fun _ _ _ _ _ _ _ => trivial, ?_⟩
  intro p c b b' act s v ws x _ hf hc _ _ _ hws hr hne
  obtain ⟨h1, h2⟩ := h p c b b' act hf s b'
  rcases hact : act s b' with ⟨⟨s', b''⟩, o⟩
  rw [hact] at h1 h2
  simp only at h1 h2
  subst h1
  split
  · rename_i heq
    simp only [Prod.mk.injEq] at heq
    obtain ⟨⟨rfl, rfl⟩, rfl⟩ := heq
    exact ⟨trivial, hc, ws, hws, hr, hne⟩
  · rename_i heq
    simp only [Prod.mk.injEq] at heq
    exact absurd heq.2 h2
  · trivial

theorem watch_quiet : Quiet watch := by
  intro p c b b' act h s b1
  simp only [watch, observe] at h
  split at h
  · simp only [Prod.mk.injEq, Option.some.injEq] at h
    rw [← h.2]
    exact ⟨rfl, by simp⟩
  · simp at h

/-! ## `idtransform` -/

/-- `copy_atom`, if it succeeds: it consumed the atom, or a part of a number. -/
theorem copyAtom_cut {s s' : RJ} {x : Bytes} (h : CInv ascii F s) {tok r : Bytes} {c : Byte}
    (ha : IsAtom (fun _ => True) (fun body => ascii = true ∨ 92 ∉ body) tok) (hc : tok = c :: r) (hfol : Number tok → Follow x)
    (hr : s.rest ++ y = tok ++ x) (hne : s.rest ≠ []) {w w' : Writer} (hok : copyAtom F c s w = ((s', w'), .ok ())) :
    CInv ascii F s' ∧ (s'.rest ++ y = x ∨ Number tok ∧ Sticks s'.rest) := by
  have io : ∀ {s1 : RJ} {z : Writer × Option Nat}, ioResult s1 z = ((s', w'), .ok ()) → s1 = s' := by
    rintro s1 ⟨z, _ | k⟩ hz
    · simp only [ioResult, Prod.mk.injEq] at hz; exact hz.1.1
    · simp [ioResult] at hz
  have word : ∀ {α : Type} {bs : Bytes} {z : RJ × Res α}, copyWord bs w z = ((s', w'), .ok ()) → ∃ v, z = (s', .ok v) := by
    rintro α bs ⟨z, v | e | _ | _⟩ hz
    · exact ⟨v, by rw [io hz]⟩
    · simp [copyWord] at hz
    · simp [copyWord] at hz
    · simp [copyWord] at hz
  unfold copyAtom at hok
  cases ha with
  | null =>
    simp only [List.cons.injEq] at hc
    obtain ⟨rfl, rfl⟩ := hc
    rw [if_neg (by decide), if_pos rfl] at hok
    obtain ⟨v, hv⟩ := word hok
    exact ⟨(null_cut h hr hne hv).1, .inl (null_cut h hr hne hv).2⟩
  | true =>
    simp only [List.cons.injEq] at hc
    obtain ⟨rfl, rfl⟩ := hc
    rw [if_neg (by decide), if_neg (by decide), if_pos rfl] at hok
    obtain ⟨v, hv⟩ := word hok
    exact ⟨(true_cut h hr hne hv).1, .inl (true_cut h hr hne hv).2⟩
  | false =>
    simp only [List.cons.injEq] at hc
    obtain ⟨rfl, rfl⟩ := hc
    rw [if_neg (by decide), if_neg (by decide), if_neg (by decide), if_pos rfl] at hok
    obtain ⟨v, hv⟩ := word hok
    exact ⟨(false_cut h hr hne hv).1, .inl (false_cut h hr hne hv).2⟩
  | string body hb hs =>
    simp only [List.cons.injEq] at hc
    obtain ⟨rfl, rfl⟩ := hc
    rw [if_pos rfl] at hok
    revert hok
    rcases w.writeAll [34] with ⟨w1, _ | k⟩ <;> intro hok
    · simp only at hok
      rcases hlb : s.writeLongBytes F w1 with ⟨⟨s2, w2⟩, _ | e | _ | _⟩
      · rw [hlb] at hok
        have := io hok
        subst this
        have := string_cut h hb hs hr hne hlb
        exact ⟨this.1, .inl this.2⟩
      · rw [hlb] at hok; simp at hok
      · rw [hlb] at hok; simp at hok
      · rw [hlb] at hok; simp at hok
    · simp at hok
  | number tok hn hl =>
    obtain ⟨c', r', e', hc'⟩ := number_first hn
    rw [hc] at e'
    simp only [List.cons.injEq] at e'
    obtain ⟨rfl, rfl⟩ := e'
    have hne' : c ≠ 34 ∧ c ≠ 110 ∧ c ≠ 116 ∧ c ≠ 102 := by
      rcases hc' with rfl | ⟨h1, h2⟩
      · decide
      · have e1 : (48 : Nat) ≤ c.toNat := by simpa [UInt8.le_iff_toNat_le] using h1
        have e2 : c.toNat ≤ 57 := by simpa [UInt8.le_iff_toNat_le] using h2
        have ne : ∀ k : Byte, (k.toNat < 48 ∨ 57 < k.toNat) → c ≠ k := by
          intro k hk hck; subst hck; omega
        exact ⟨ne _ (by decide), ne _ (by decide), ne _ (by decide), ne _ (by decide)⟩
    rw [if_neg hne'.1, if_neg hne'.2.1, if_neg hne'.2.2.1, if_neg hne'.2.2.2] at hok
    rcases hnb : s.nextNumberBytes F with ⟨s2, v | e | _ | _⟩
    · rw [hnb] at hok
      have := io hok
      subst this
      obtain ⟨h1, h2⟩ := number_cut h hn (hfol hn) hr hnb
      exact ⟨h1, h2.imp id fun h => ⟨hn, h⟩⟩
    · rw [hnb] at hok; simp at hok
    · rw [hnb] at hok; simp at hok
    · rw [hnb] at hok; simp at hok

theorem onAtom_cut {s s' : RJ} {x : Bytes} (h : CInv ascii F s) {tok : Bytes}
    (ha : IsAtom (fun _ => True) (fun body => ascii = true ∨ 92 ∉ body) tok) (hfol : Number tok → Follow x)
    (hr : s.rest ++ y = tok ++ x) (hne : s.rest ≠ []) {b b' : Idt} {o : Acted} (hok : Idt.onAtom F s b = ((s', b'), o)) :
    o ≠ .op .none ∧ (o = .op .valueIsConsumed → CInv ascii F s' ∧ (s'.rest ++ y = x ∨ Number tok ∧ Sticks s'.rest)) := by
  obtain ⟨c, r, e, hsp, hff, _⟩ := atom_first ha
  obtain ⟨r', e1, e2⟩ := cons_of_append (by rw [hr, e]; rfl) hne
  obtain ⟨s1, e3, hi, hm⟩ := h.peek (ws := []) (t := r') (by rw [e1]; rfl) nofun hsp hff
  have hrest : s1.rest = s.rest := by rw [hm.rest]; rfl
  unfold Idt.onAtom at hok
  revert hok
  rcases b.writeSeqpos with ⟨b1, _ | m⟩ <;> intro hok
  · simp only [e3] at hok
    rcases hca : copyAtom F c s1 b1.w with ⟨⟨s2, w2⟩, _ | er | _ | _⟩
    · simp only [hca, Prod.mk.injEq] at hok
      obtain ⟨⟨rfl, rfl⟩, rfl⟩ := hok
      exact ⟨by simp, fun _ => copyAtom_cut hi ha e hfol (by rw [hrest]; exact hr) (by rw [hrest]; exact hne) hca⟩
    · simp only [hca, Prod.mk.injEq] at hok
      obtain ⟨_, rfl⟩ := hok
      simp
    · simp only [hca, Prod.mk.injEq] at hok
      obtain ⟨_, rfl⟩ := hok
      simp
    · simp only [hca, Prod.mk.injEq] at hok
      obtain ⟨_, rfl⟩ := hok
      simp
  · simp only [Prod.mk.injEq] at hok
    obtain ⟨_, rfl⟩ := hok
    simp

theorem idt_careful (ascii : Bool) (F : Nat) (y : Bytes) : Careful (Idt.callbacks F) ascii F y (fun _ => True) := by
  refine ⟨fun _ _ _ _ => trivial, fun _ _ _ _ => trivial, fun _ _ _ _ _ _ _ => trivial, ?_⟩
  intro p c b b' act s v ws x _ hf hc hst hv hfol hws hr hne
  have hstruct : ∀ bs, ((Idt.onStruct bs s b').1.1 = s ∧ (Idt.onStruct bs s b').2 ≠ .op .valueIsConsumed) := by
    intro bs
    unfold Idt.onStruct
    rcases b'.writeSeqpos with ⟨b1, _ | m⟩
    · simp only
      rcases b1.write bs "IO error writing struct" with ⟨b2, _ | m⟩
      · exact ⟨rfl, by simp⟩
      · exact ⟨rfl, by simp⟩
    · exact ⟨rfl, by simp⟩
  have hact : ((act s b').1.1 = s ∧ (act s b').2 ≠ .op .valueIsConsumed) ∨ p = .atom ∧ act = Idt.onAtom F := by
    simp only [Idt.callbacks] at hf
    cases p with
    | array =>
      simp only [Idt.find, Prod.mk.injEq, Option.some.injEq] at hf
      rw [← hf.2]
      exact .inl (hstruct _)
    | object =>
      simp only [Idt.find, Prod.mk.injEq, Option.some.injEq] at hf
      rw [← hf.2]
      exact .inl (hstruct _)
    | none =>
      have : act = Idt.onKey := by
        unfold Idt.find at hf
        simp only at hf
        split at hf
        · split at hf
          · simp only [Prod.mk.injEq, Option.some.injEq] at hf; exact hf.2.symm
          · simp at hf
        · simp at hf
      rw [this]
      left
      unfold Idt.onKey
      rcases b'.writeSeqpos with ⟨b1, _ | m⟩
      · exact ⟨rfl, by simp⟩
      · exact ⟨rfl, by simp⟩
    | atom =>
      simp only [Idt.find, Prod.mk.injEq, Option.some.injEq] at hf
      exact .inr ⟨rfl, hf.2.symm⟩
  rcases hact with ⟨h1, h2⟩ | ⟨rfl, rfl⟩
  · rcases hact : act s b' with ⟨⟨s', b''⟩, o⟩
    rw [hact] at h1 h2
    simp only at h1 h2
    subst h1
    split
    · rename_i heq
      simp only [Prod.mk.injEq] at heq
      obtain ⟨⟨rfl, rfl⟩, rfl⟩ := heq
      exact ⟨trivial, hc, ws, hws, hr, hne⟩
    · rename_i heq
      simp only [Prod.mk.injEq] at heq
      exact absurd heq.2 h2
    · trivial
  · obtain ⟨rfl, hne2⟩ := hne (by simp)
    cases v with
    | atom tok =>
      rcases hact : Idt.onAtom F s b' with ⟨⟨s', b''⟩, o⟩
      have := onAtom_cut hc hv hfol hr hne2 hact
      split
      · rename_i heq
        simp only [Prod.mk.injEq] at heq
        exact absurd heq.2 this.1
      · rename_i heq
        simp only [Prod.mk.injEq] at heq
        obtain ⟨⟨rfl, rfl⟩, rfl⟩ := heq
        exact ⟨trivial, this.2 rfl⟩
      · trivial
    | arr _ _ => exact hst.elim
    | obj _ _ => exact hst.elim

/-- **C34 for `idtransform`, partial.** `idtransform` does not succeed on a part of a document, whatever the writer does. -/
theorem C34_idtransform_partial (ascii : Bool) (turns F : Nat) (rj : RJ) (w : Writer) (pool : Pool)
    (R : Room) (l : List (Pos × Bytes)) (b : Bytes) (v : Val) (p y : Bytes)
    (hsync : rj.Sync) (hclean : rj.b.reader.Clean) (hlen : 8 ≤ rj.b.buf.length)
    (hfuel : enoughFuel rj F) (hascii : ascii = true → AllBytes Ascii rj.b) (hl : Holds pool R l)
    (hb : Spaces b) (hv : v.Meets (cutRules ascii)) (hn : ¬ v.IsNum) (hpy : v.text = p ++ y) (hp : p ≠ []) (hy : y ≠ [])
    (hr : rj.rest = b ++ p) : (idtransform turns F rj w pool).2 ≠ .ok () := by
  have h := C34_truncated_partial ascii F (Idt.callbacks F) (fun _ => True) turns ⟨[], true⟩ ⟨rj, .new w, pool⟩ R l [] b v p y
    (idt_careful ascii F y) hsync hclean hlen hfuel hascii hl trivial rfl (.inr rfl) nofun hb hv hn hpy hp hy hr
  unfold idtransform
  revert h
  rcases scan turns F (Idt.callbacks F) ⟨[], true⟩ ⟨rj, .new w, pool⟩ with ⟨st, _ | e | _ | _⟩
  · exact id
  · intro _; simp
  · intro _; simp
  · intro _; simp

/-! ## A concrete case, and the false part -/

theorem exArr_cut (ascii : Bool) : exArr.Meets (cutRules ascii) := by
  have hn : Spaces [] := by intro c hc; simp at hc
  have hs : Spaces [32] := by intro c hc; simp at hc; subst hc; unfold Space; decide
  refine ⟨hn, hn, ⟨hn, hn, ⟨raw_k, trivial⟩, hn, hs, ⟨hn, hn, ?_, hn, hn, ?_, hn, trivial⟩, trivial, hn, trivial⟩, hn, hs, ?_, hn, trivial⟩
  · exact .number _ number_one trivial
  · exact .true
  · exact .string [120] raw_x (.inr (by decide))

/-- ` [{"k": [1,true]}, "x"]`, and again ` [{"k": [1,tr`, byte by byte. -/
def exHalf : St (List Event) :=
  ⟨.new (oneByOne (32 :: (exArr.text ++ 32 :: exArr.text.take 10))) (List.replicate 8 0), [], exPool⟩

/-- The hypotheses of `C34_truncated_partial`. -/
example : Careful watch true 200 (exArr.text.drop 10) (fun _ => True) ∧ exHalf.rj.Sync ∧ exHalf.rj.b.reader.Clean ∧ 8 ≤ exHalf.rj.b.buf.length ∧
    enoughFuel exHalf.rj 200 ∧ AllBytes Ascii exHalf.rj.b ∧ Holds exHalf.pool exRoom [] ∧ Spaces [32] ∧ exArr.Meets (cutRules true) ∧
    ¬ exArr.IsNum ∧ exArr.text = exArr.text.take 10 ++ exArr.text.drop 10 ∧ exArr.text.take 10 ≠ [] ∧ exArr.text.drop 10 ≠ [] ∧
    exHalf.rj.rest = Docs.text [([32], exArr)] ([32] ++ exArr.text.take 10) ∧ (scan 40 200 watch ⟨[], false⟩ exHalf).2 ≠ .ok () := by
  have hs : Spaces [32] := by intro c hc; simp at hc; subst hc; unfold Space; decide
  have hw := watch_quiet.careful true 200 (exArr.text.drop 10)
  have h1 : exHalf.rj.Sync := sync_new _ _
  have h2 : exHalf.rj.b.reader.Clean := by decide +kernel
  have h3 : enoughFuel exHalf.rj 200 := by decide +kernel
  have h4 : AllBytes Ascii exHalf.rj.b := ⟨by unfold Ascii; decide +kernel, by unfold Ascii; decide +kernel⟩
  have h5 : exHalf.rj.rest = Docs.text [([32], exArr)] ([32] ++ exArr.text.take 10) := by decide +kernel
  refine ⟨hw, h1, h2, by decide, h3, h4, exPool_holds, hs, exArr_cut _, id, by decide +kernel, by decide +kernel, by decide +kernel, h5, ?_⟩
  exact C34_truncated_partial true 200 watch _ 40 ⟨[], false⟩ exHalf exRoom [] [([32], exArr)] [32] exArr (exArr.text.take 10) (exArr.text.drop 10)
    hw h1 h2 (by decide) h3 (fun _ => h4) exPool_holds trivial rfl (.inl rfl)
    (by intro d hd; simp only [List.mem_singleton] at hd; subst hd; exact ⟨hs, exArr_cut _, id⟩)
    hs (exArr_cut _) id (by decide +kernel) (by decide +kernel) (by decide +kernel) h5

/-- `你"]`, the contents of a string with an escaped quote. -/
def exQuote : Bytes := [0xe4, 0xbd, 0xa0, 92, 34, 93]

/-- **C34, the false part.** The input `["你\"]` is a part of the document `["你\"]"]`. `scan` accepts it when it arrives byte
by byte: the escaped quote is taken for the end of the string, and what follows for the end of the array. -/
theorem C34_cut_in_escape : ∃ (st : St (List Event)) (v : Val) (p y : Bytes), st.rj.Sync ∧ st.rj.b.reader.Clean ∧ 8 ≤ st.rj.b.buf.length ∧
    enoughFuel st.rj 100 ∧ Holds st.pool exRoom [] ∧ v = .arr [] (.cons [] (.atom (34 :: (exQuote ++ [34]))) [] .nil) ∧
    v.text = p ++ y ∧ y = [34, 93] ∧ st.rj.rest = p ∧ (scan 10 100 watch ⟨[], false⟩ st).2 = .ok () := by
  refine ⟨⟨.new (oneByOne (91 :: 34 :: exQuote)) (List.replicate 8 0), [], exPool⟩, _, 91 :: 34 :: exQuote, [34, 93], sync_new _ _, by decide +kernel,
    by decide, by decide +kernel, exPool_holds, rfl, by decide +kernel, rfl, by decide +kernel, by decide +kernel⟩

end Verif.Scan
