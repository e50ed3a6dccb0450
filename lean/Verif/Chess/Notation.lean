import Verif.Chess.Parse
import Mathlib.Data.List.Induction
/-!
# C56: the notation of signatures and casts

What a comment after a label, or after an opcode, has to look like to be a signature, or a cast, and what it then says.
-/

namespace Buxn.Chess

open Buxn.Asm (Str SymType SymInfo ch str)

/-! ## Specification -/

/-- The words with a meaning of their own. -/
def reserved : List Str := [str ".", str "!", str "--", str "->"]

/-- One side of a signature, or a cast: values on the working stack and, after a dot, on the return stack. -/
structure Side where
  wst : List Str
  rst : Option (List Str)

def Side.words (s : Side) : List Str :=
  s.wst ++ match s.rst with
    | none => []
    | some l => str "." :: l

/-- Values are not reserved words, and there are at most eight in each list. -/
def Names (l : List Str) : Prop := l.length ≤ 8 ∧ ∀ t ∈ l, t ∉ reserved

def Side.Proper (s : Side) : Prop := Names s.wst ∧ ∀ l, s.rst = some l → Names l

/-- A signature: both sides, `--` for a subroutine or `->` for a vector, and perhaps an exclamation mark: not to be checked. -/
structure SigText where
  ins : Side
  kind : Kind
  outs : Side
  trusted : Bool

def arrow : Kind → Str
  | .subroutine => str "--"
  | .vector => str "->"

def SigText.words (s : SigText) : List Str :=
  s.ins.words ++ arrow s.kind :: s.outs.words ++ if s.trusted then [str "!"] else []

def SigText.meaning (s : SigText) : Sig :=
  { kind := s.kind
    wstIn := s.ins.wst.map parseValue, rstIn := (s.ins.rst.getD []).map parseValue
    wstOut := s.outs.wst.map parseValue, rstOut := (s.outs.rst.getD []).map parseValue }

/-- The words before the arrow fit into the buffer: 528 characters, a word taking one more than its length. -/
def InBuffer (l : List Str) : Prop := (l.map fun t => t.length + 1).sum ≤ 528

structure SigText.Proper (s : SigText) : Prop where
  ins : s.ins.Proper
  outs : s.outs.Proper
  fits : InBuffer s.ins.words

/-- All that a comment says, given to the parser word by word, and its end. -/
def readBody (ts : List Str) (r : Reader) : Reader := annotationEnd (ts.foldl (fun r t => annotate t r) r)

/-! ## Drafts: signatures that have been read in part -/

structure Draft where
  ins : Side
  outs : Option (Kind × Side)
  trusted : Bool

def Draft.words (d : Draft) : List Str :=
  d.ins.words ++ (match d.outs with
    | none => []
    | some (k, s) => arrow k :: s.words) ++ if d.trusted then [str "!"] else []

def Draft.meaning (d : Draft) : Sig :=
  { kind := match d.outs with | none => .vector | some (k, _) => k
    wstIn := d.ins.wst.map parseValue, rstIn := (d.ins.rst.getD []).map parseValue
    wstOut := match d.outs with | none => [] | some (_, s) => s.wst.map parseValue
    rstOut := match d.outs with | none => [] | some (_, s) => (s.rst.getD []).map parseValue }

def Draft.place (d : Draft) : Place :=
  match d.outs with
  | none => match d.ins.rst with | none => .wstIn | some _ => .rstIn
  | some (_, s) => match s.rst with | none => .wstOut | some _ => .rstOut

structure Draft.Proper (d : Draft) : Prop where
  ins : d.ins.Proper
  outs : ∀ k s, d.outs = some (k, s) → s.Proper

def Draft.state (d : Draft) (r : Reader) : Reader :=
  { r with handler := some .signature2, place := d.place, isSealed := d.trusted, sig := d.meaning }

/-- Nothing has been recorded, and the comment is no longer read. -/
structure Gone (r r' : Reader) : Prop where
  handler : r'.handler = none
  label : r'.label = r.label
  marked : r'.marked = r.marked
  queue : r'.queue = r.queue
  curAddr : r'.curAddr = r.curAddr
  casts : r'.casts = r.casts

theorem Side.snoc_words {s : Side} {ts : List Str} {t : Str} (h : s.words = ts ++ [t]) :
    (s.rst = none ∧ ∃ l, s.wst = l ++ [t] ∧ ts = l) ∨ (s.rst = some [] ∧ t = str "." ∧ ts = s.wst) ∨
      ∃ l, s.rst = some (l ++ [t]) ∧ ts = s.wst ++ str "." :: l := by
  unfold Side.words at h
  cases hr : s.rst with
  | none => rw [hr] at h; simp only [List.append_nil] at h; exact .inl ⟨rfl, ts, h, rfl⟩
  | some l =>
    rw [hr] at h
    simp only at h
    rcases List.eq_nil_or_concat l with rfl | ⟨l', b, rfl⟩
    · have := List.append_inj' h rfl
      exact .inr (.inl ⟨rfl, by simpa using this.2.symm, this.1.symm⟩)
    · rw [List.concat_eq_append] at h ⊢
      rw [← List.cons_append, ← List.append_assoc] at h
      have := List.append_inj' h rfl
      refine .inr (.inr ⟨l', ?_, this.1.symm⟩)
      have e : b = t := by simpa using this.2
      rw [e]

theorem Names.init {l : List Str} {t : Str} (h : Names (l ++ [t])) : Names l ∧ l.length < 8 ∧ t ∉ reserved := by
  obtain ⟨h1, h2⟩ := h
  rw [List.length_append] at h1
  simp at h1
  exact ⟨⟨by omega, fun x hx => h2 x (List.mem_append_left _ hx)⟩, by omega, h2 t (List.mem_append_right _ (List.mem_singleton.mpr rfl))⟩

theorem Names.snoc {l : List Str} {t : Str} (h : Names l) (hl : l.length < 8) (ht : t ∉ reserved) : Names (l ++ [t]) := by
  refine ⟨by rw [List.length_append]; simp; omega, fun x hx => ?_⟩
  rcases List.mem_append.mp hx with hx | hx
  · exact h.2 x hx
  · rw [List.mem_singleton.mp hx]; exact ht

theorem not_reserved {t : Str} (h : t ∉ reserved) : t ≠ str "." ∧ t ≠ str "!" ∧ isDashes t = false ∧ isArrow t = false := by
  unfold reserved at h
  simp only [List.mem_cons, List.not_mem_nil, or_false, not_or] at h
  obtain ⟨h1, h2, h3, h4⟩ := h
  exact ⟨h1, h2, by unfold isDashes; simpa using h3, by unfold isArrow; simpa using h4⟩

theorem reserved_of {t : Str} (h1 : t ≠ str ".") (h2 : t ≠ str "!") (h3 : ¬ (isDashes t || isArrow t) = true) : t ∉ reserved := by
  unfold isDashes isArrow at h3
  simp only [Bool.or_eq_true, beq_iff_eq, not_or] at h3
  unfold reserved
  simp only [List.mem_cons, List.not_mem_nil, or_false, not_or]
  exact ⟨h1, h2, h3.1, h3.2⟩

/-- The next word is taken up, or the comment is given up. -/
theorem signatureToken_draft {d : Draft} (hd : d.Proper) (t : Str) (r : Reader) :
    (∃ q : Draft, q.Proper ∧ q.words = d.words ++ [t] ∧ signatureToken t (d.state r) = q.state r) ∨ Gone r (signatureToken t (d.state r)) := by
  obtain ⟨⟨wi, ri⟩, outs, tr⟩ := d
  cases tr with
  | true =>
    right
    unfold signatureToken
    simp only [Draft.state, if_true, Reader.reject]
    repeat' split
    all_goals exact ⟨rfl, rfl, rfl, rfl, rfl, rfl⟩
  | false =>
  unfold signatureToken
  simp only [Draft.state, Bool.false_eq_true, if_false]
  by_cases h1 : t = str "."
  · rw [if_pos h1]
    subst h1
    cases outs with
    | none =>
      cases ri with
      | none => left; exact ⟨⟨⟨wi, some []⟩, none, false⟩, ⟨⟨hd.ins.1, fun l hl => (by cases hl; exact ⟨by simp, fun _ h => (by cases h)⟩)⟩, fun _ _ h => (by cases h)⟩,
          by simp [Draft.words, Side.words], rfl⟩
      | some ri => right; exact ⟨rfl, rfl, rfl, rfl, rfl, rfl⟩
    | some ks =>
      obtain ⟨k, wo, ro⟩ := ks
      cases ro with
      | none =>
        left
        exact ⟨⟨⟨wi, ri⟩, some (k, ⟨wo, some []⟩), false⟩, ⟨hd.ins, fun k' s h => (by
          cases h
          exact ⟨(hd.outs _ _ rfl).1, fun l hl => (by cases hl; exact ⟨by simp, fun _ h => (by cases h)⟩)⟩)⟩,
          by simp [Draft.words, Side.words], rfl⟩
      | some ro => right; exact ⟨rfl, rfl, rfl, rfl, rfl, rfl⟩
  rw [if_neg h1]
  by_cases h2 : t = str "!"
  · rw [if_pos h2]
    subst h2
    left
    exact ⟨⟨⟨wi, ri⟩, outs, true⟩, ⟨hd.ins, hd.outs⟩, by simp [Draft.words], rfl⟩
  rw [if_neg h2]
  by_cases h3 : (isDashes t || isArrow t) = true
  · rw [if_pos h3]
    cases outs with
    | some ks =>
      obtain ⟨k, wo, ro⟩ := ks
      cases ro <;> (right; exact ⟨rfl, rfl, rfl, rfl, rfl, rfl⟩)
    | none =>
      left
      have hk : t = arrow (if isDashes t then .subroutine else .vector) := by
        cases hdd : isDashes t
        · rw [hdd, Bool.false_or] at h3
          unfold isArrow at h3
          rw [beq_iff_eq] at h3
          exact h3
        · unfold isDashes at hdd
          rw [beq_iff_eq] at hdd
          exact hdd
      refine ⟨⟨⟨wi, ri⟩, some (if isDashes t then .subroutine else .vector, ⟨[], none⟩), false⟩, ⟨hd.ins, fun k' s h => (by
          cases h
          exact ⟨⟨by simp, fun _ h => (by cases h)⟩, fun _ h => (by cases h)⟩)⟩, ?_, ?_⟩
      · have : ∀ w, Draft.words ⟨⟨wi, ri⟩, none, false⟩ ++ [w] = Side.words ⟨wi, ri⟩ ++ [w] := by intro w; simp [Draft.words]
        rw [this]
        simp only [Draft.words, ← hk]
        simp [Side.words]
      · cases ri <;> rfl
  rw [if_neg h3]
  have hres := reserved_of h1 h2 h3
  cases outs with
  | none =>
    cases ri with
    | none =>
      by_cases hl : wi.length < 8
      · left
        refine ⟨⟨⟨wi ++ [t], none⟩, none, false⟩, ⟨⟨hd.ins.1.snoc hl hres, fun _ h => (by cases h)⟩, fun _ _ h => (by cases h)⟩,
          by simp [Draft.words, Side.words], ?_⟩
        rw [if_pos (by simpa [Draft.meaning, Draft.place, Sig.part, maxArgs] using hl)]
        simp [Draft.meaning, Draft.place, Sig.extend]
      · right
        rw [if_neg (by simpa [Draft.meaning, Draft.place, Sig.part, maxArgs] using hl)]
        exact ⟨rfl, rfl, rfl, rfl, rfl, rfl⟩
    | some ri =>
      by_cases hl : ri.length < 8
      · left
        refine ⟨⟨⟨wi, some (ri ++ [t])⟩, none, false⟩, ⟨⟨hd.ins.1, fun l h => (by cases h; exact (hd.ins.2 _ rfl).snoc hl hres)⟩, fun _ _ h => (by cases h)⟩,
          by simp [Draft.words, Side.words], ?_⟩
        rw [if_pos (by simpa [Draft.meaning, Draft.place, Sig.part, maxArgs] using hl)]
        simp [Draft.meaning, Draft.place, Sig.extend]
      · right
        rw [if_neg (by simpa [Draft.meaning, Draft.place, Sig.part, maxArgs] using hl)]
        exact ⟨rfl, rfl, rfl, rfl, rfl, rfl⟩
  | some ks =>
    obtain ⟨k, wo, ro⟩ := ks
    cases ro with
    | none =>
      by_cases hl : wo.length < 8
      · left
        refine ⟨⟨⟨wi, ri⟩, some (k, ⟨wo ++ [t], none⟩), false⟩, ⟨hd.ins, fun k' s h => (by
          cases h; exact ⟨(hd.outs _ _ rfl).1.snoc hl hres, fun _ h => (by cases h)⟩)⟩,
          by simp [Draft.words, Side.words], ?_⟩
        rw [if_pos (by simpa [Draft.meaning, Draft.place, Sig.part, maxArgs] using hl)]
        simp [Draft.meaning, Draft.place, Sig.extend]
      · right
        rw [if_neg (by simpa [Draft.meaning, Draft.place, Sig.part, maxArgs] using hl)]
        exact ⟨rfl, rfl, rfl, rfl, rfl, rfl⟩
    | some ro =>
      by_cases hl : ro.length < 8
      · left
        refine ⟨⟨⟨wi, ri⟩, some (k, ⟨wo, some (ro ++ [t])⟩), false⟩, ⟨hd.ins, fun k' s h => (by
          cases h; exact ⟨(hd.outs _ _ rfl).1, fun l h => (by cases h; exact ((hd.outs _ _ rfl).2 _ rfl).snoc hl hres)⟩)⟩,
          by simp [Draft.words, Side.words], ?_⟩
        rw [if_pos (by simpa [Draft.meaning, Draft.place, Sig.part, maxArgs] using hl)]
        simp [Draft.meaning, Draft.place, Sig.extend]
      · right
        rw [if_neg (by simpa [Draft.meaning, Draft.place, Sig.part, maxArgs] using hl)]
        exact ⟨rfl, rfl, rfl, rfl, rfl, rfl⟩

theorem token_name {t : Str} (h : t ∉ reserved) {d : Draft} (hs : d.trusted = false) (r : Reader)
    (hl : (d.meaning.part d.place).length < 8) :
    signatureToken t (d.state r) = { d.state r with sig := d.meaning.extend d.place (parseValue t) } := by
  obtain ⟨h1, h2, h3, h4⟩ := not_reserved h
  unfold signatureToken
  simp only [Draft.state, hs, Bool.false_eq_true, if_false, if_neg h1, if_neg h2, h3, h4, Bool.or_false, maxArgs, if_pos hl]

/-- The last word of a draft was read when the words before had been. -/
theorem draft_before {q : Draft} (hq : q.Proper) {ts : List Str} {t : Str} (h : q.words = ts ++ [t]) (r : Reader) :
    ∃ d : Draft, d.Proper ∧ d.words = ts ∧ signatureToken t (d.state r) = q.state r := by
  obtain ⟨⟨wi, ri⟩, outs, tr⟩ := q
  cases tr with
  | true =>
    have h : _ ++ [str "!"] = ts ++ [t] := h
    have := List.append_inj' h rfl
    refine ⟨⟨⟨wi, ri⟩, outs, false⟩, ⟨hq.ins, hq.outs⟩, by rw [← this.1]; simp [Draft.words], ?_⟩
    have e : t = str "!" := by simpa using this.2.symm
    subst e
    unfold signatureToken
    simp only [Draft.state, Bool.false_eq_true, if_false]
    rw [if_neg (by decide), if_true]
    rfl
  | false =>
    cases outs with
    | none =>
      have h : (Side.words ⟨wi, ri⟩) = ts ++ [t] := by simpa [Draft.words] using h
      rcases Side.snoc_words h with ⟨rfl, l, e1, e2⟩ | ⟨e0, e1, e2⟩ | ⟨l, e1, e2⟩
      · have e1 : wi = l ++ [t] := e1
        subst e1 e2
        obtain ⟨n1, n2, n3⟩ := hq.ins.1.init
        refine ⟨⟨⟨ts, none⟩, none, false⟩, ⟨⟨n1, fun _ h => (by cases h)⟩, fun _ _ h => (by cases h)⟩, by simp [Draft.words, Side.words], ?_⟩
        rw [token_name n3 rfl r (by simpa [Draft.meaning, Draft.place, Sig.part] using n2)]
        simp [Draft.state, Draft.meaning, Draft.place, Sig.extend]
      · have e0 : ri = some [] := e0
        subst e0 e1 e2
        refine ⟨⟨⟨ts, none⟩, none, false⟩, ⟨⟨hq.ins.1, fun _ h => (by cases h)⟩, fun _ _ h => (by cases h)⟩, by simp [Draft.words, Side.words], ?_⟩
        unfold signatureToken
        simp only [Draft.state, Bool.false_eq_true, if_false, if_true]
        rfl
      · have e1 : ri = some (l ++ [t]) := e1
        subst e1 e2
        obtain ⟨n1, n2, n3⟩ := (hq.ins.2 _ rfl).init
        refine ⟨⟨⟨wi, some l⟩, none, false⟩, ⟨⟨hq.ins.1, fun _ h => (by cases h; exact n1)⟩, fun _ _ h => (by cases h)⟩, by simp [Draft.words, Side.words], ?_⟩
        rw [token_name n3 rfl r (by simpa [Draft.meaning, Draft.place, Sig.part] using n2)]
        simp [Draft.state, Draft.meaning, Draft.place, Sig.extend]
    | some ks =>
      obtain ⟨k, s⟩ := ks
      have h : (Side.words ⟨wi, ri⟩) ++ arrow k :: s.words = ts ++ [t] := by simpa [Draft.words] using h
      rcases List.eq_nil_or_concat s.words with hn | ⟨l, b, hb⟩
      · rw [hn] at h
        have := List.append_inj' h rfl
        have e : t = arrow k := by simpa using this.2.symm
        have hs : s = ⟨[], none⟩ := by
          obtain ⟨wo, ro⟩ := s
          unfold Side.words at hn
          rw [List.append_eq_nil_iff] at hn
          cases ro with
          | none => simpa using hn.1
          | some l => exact absurd hn.2 (by simp)
        subst e hs
        refine ⟨⟨⟨wi, ri⟩, none, false⟩, ⟨hq.ins, fun _ _ h => (by cases h)⟩, by rw [← this.1]; simp [Draft.words], ?_⟩
        unfold signatureToken
        simp only [Draft.state, Bool.false_eq_true, if_false]
        cases k <;> cases ri <;> rfl
      · rw [List.concat_eq_append] at hb
        rw [hb, ← List.cons_append, ← List.append_assoc] at h
        have hh := List.append_inj' h rfl
        have e : b = t := by simpa using hh.2
        subst e
        rcases Side.snoc_words hb with ⟨e0, m, e1, e2⟩ | ⟨e0, e1, e2⟩ | ⟨m, e1, e2⟩
        · obtain ⟨wo, ro⟩ := s
          have e0 : ro = none := e0
          have e1 : wo = m ++ [b] := e1
          subst e0 e1 e2
          obtain ⟨n1, n2, n3⟩ := (hq.outs _ _ rfl).1.init
          refine ⟨⟨⟨wi, ri⟩, some (k, ⟨l, none⟩), false⟩, ⟨hq.ins, fun _ _ h => (by cases h; exact ⟨n1, fun _ h => (by cases h)⟩)⟩,
            by rw [← hh.1]; simp [Draft.words, Side.words], ?_⟩
          rw [token_name n3 rfl r (by simpa [Draft.meaning, Draft.place, Sig.part] using n2)]
          simp [Draft.state, Draft.meaning, Draft.place, Sig.extend]
        · obtain ⟨wo, ro⟩ := s
          have e0 : ro = some [] := e0
          subst e0 e1 e2
          refine ⟨⟨⟨wi, ri⟩, some (k, ⟨l, none⟩), false⟩, ⟨hq.ins, fun _ _ h => (by cases h; exact ⟨(hq.outs _ _ rfl).1, fun _ h => (by cases h)⟩)⟩,
            by rw [← hh.1]; simp [Draft.words, Side.words], ?_⟩
          unfold signatureToken
          simp only [Draft.state, Bool.false_eq_true, if_false, if_true]
          rfl
        · obtain ⟨wo, ro⟩ := s
          have e1 : ro = some (m ++ [b]) := e1
          subst e1 e2
          obtain ⟨n1, n2, n3⟩ := ((hq.outs _ _ rfl).2 _ rfl).init
          refine ⟨⟨⟨wi, ri⟩, some (k, ⟨wo, some m⟩), false⟩, ⟨hq.ins, fun _ _ h => (by
            cases h; exact ⟨(hq.outs _ _ rfl).1, fun _ h => (by cases h; exact n1)⟩)⟩,
            by rw [← hh.1]; simp [Draft.words, Side.words], ?_⟩
          rw [token_name n3 rfl r (by simpa [Draft.meaning, Draft.place, Sig.part] using n2)]
          simp [Draft.state, Draft.meaning, Draft.place, Sig.extend]

/-! ## All words of a comment -/

def noDraft : Draft := ⟨⟨[], none⟩, none, false⟩

theorem noDraft_proper : noDraft.Proper := ⟨⟨⟨by simp [noDraft], fun _ h => (by cases h)⟩, fun _ h => (by cases h)⟩, fun _ _ h => (by cases h)⟩

/-- One word in the second stage. -/
def stage (r : Reader) (t : Str) : Reader := secondStage .signature2 t r

theorem stage_state (d : Draft) (t : Str) (r : Reader) : stage (d.state r) t = signatureToken t (d.state r) := rfl

theorem stage_gone {r r' : Reader} (h : Gone r r') : ∀ ts : List Str, ts.foldl stage r' = r'
  | [] => rfl
  | t :: ts => by
    rw [List.foldl_cons, show stage r' t = r' by unfold stage secondStage; rw [h.handler]]
    exact stage_gone h ts

theorem stage_words (r : Reader) : ∀ ts : List Str,
    (∃ d : Draft, d.Proper ∧ d.words = ts ∧ ts.foldl stage (noDraft.state r) = d.state r) ∨ Gone r (ts.foldl stage (noDraft.state r)) := by
  intro ts
  induction ts using List.reverseRecOn with
  | nil => exact .inl ⟨noDraft, noDraft_proper, rfl, rfl⟩
  | append_singleton ts t ih =>
    rw [List.foldl_append]
    rcases ih with ⟨d, h1, h2, h3⟩ | h
    · rw [h3]
      show _ ∨ Gone r (signatureToken t (d.state r))
      rcases signatureToken_draft h1 t r with ⟨q, q1, q2, q3⟩ | g
      · exact .inl ⟨q, q1, by rw [q2, h2], q3⟩
      · exact .inr g
    · rw [stage_gone h]
      exact .inr h

theorem stage_draft (r : Reader) : ∀ (ts : List Str) (q : Draft), q.Proper → q.words = ts → ts.foldl stage (noDraft.state r) = q.state r := by
  intro ts
  induction ts using List.reverseRecOn with
  | nil =>
    intro q _ h
    obtain ⟨⟨wi, ri⟩, outs, tr⟩ := q
    unfold Draft.words at h
    rw [List.append_eq_nil_iff, List.append_eq_nil_iff] at h
    obtain ⟨⟨h1, h2⟩, h3⟩ := h
    unfold Side.words at h1
    rw [List.append_eq_nil_iff] at h1
    obtain ⟨h4, h5⟩ := h1
    cases outs with
    | some ks => exact absurd h2 (by simp)
    | none =>
      cases ri with
      | some l => exact absurd h5 (by simp)
      | none =>
        cases tr with
        | true => exact absurd h3 (by simp)
        | false =>
          have h4 : wi = [] := h4
          subst h4
          rfl
  | append_singleton ts t ih =>
    intro q hq h
    obtain ⟨d, d1, d2, d3⟩ := draft_before hq h r
    rw [List.foldl_append, ih d d1 d2]
    exact d3

/-- The first stage keeps the words, until there are too many. -/
theorem buffered : ∀ (ts : List Str) (r : Reader), (∀ t ∈ ts, isDashes t = false ∧ isArrow t = false) → r.handler = some .signature →
    let r' := ts.foldl (fun r t => annotate t r) r
    (r.tokens.length + ts.length ≤ 33 ∧ r.used + (ts.map fun t => t.length + 1).sum ≤ 528 →
      r' = { r with tokens := r.tokens ++ ts, used := r.used + (ts.map fun t => t.length + 1).sum }) ∧
    (¬ (r.tokens.length + ts.length ≤ 33 ∧ r.used + (ts.map fun t => t.length + 1).sum ≤ 528) → r.tokens.length ≤ 33 → r.used ≤ 528 → Gone r r')
  | [], r, _, _ => by
    refine ⟨fun _ => by simp, fun h h1 h2 => absurd ⟨?_, ?_⟩ h⟩
    · simpa using h1
    · simpa using h2
  | t :: ts, r, hts, hh => by
    obtain ⟨d1, d2⟩ := hts t List.mem_cons_self
    have gone : ∀ (r r' : Reader), Gone r r' → ∀ ts : List Str, Gone r (ts.foldl (fun r t => annotate t r) r') := by
      intro r r' hg ts
      induction ts with
      | nil => exact hg
      | cons t ts ih =>
        rw [List.foldl_cons, show annotate t r' = r' by unfold annotate; rw [hg.handler]]
        exact ih
    have hstep : annotate t r = if r.tokens.length < 33 then
        if r.used + t.length + 1 > 528 then { r with handler := none }
        else { r with tokens := r.tokens ++ [t], used := r.used + t.length + 1 }
      else { r with handler := none } := by
      unfold annotate
      rw [hh]
      simp only [d1, d2, Bool.or_self, Bool.false_eq_true, if_false]
      unfold buffer
      rw [if_neg (by simp), show maxTokens = 33 from rfl, show tmpSize = 528 from rfl, hh]
    intro r'
    have hr' : r' = ts.foldl (fun r t => annotate t r) (annotate t r) := rfl
    rw [hstep] at hr'
    rw [List.map_cons, List.sum_cons, List.length_cons]
    by_cases h1 : r.tokens.length < 33
    swap
    · rw [if_neg h1] at hr'
      refine ⟨fun h => absurd h.1 (by omega), fun _ _ _ => ?_⟩
      rw [hr']
      exact gone r { r with handler := none } ⟨rfl, rfl, rfl, rfl, rfl, rfl⟩ ts
    rw [if_pos h1] at hr'
    by_cases h2 : r.used + t.length + 1 > 528
    · rw [if_pos h2] at hr'
      refine ⟨fun h => absurd h.2 (by omega), fun _ _ _ => ?_⟩
      rw [hr']
      exact gone r { r with handler := none } ⟨rfl, rfl, rfl, rfl, rfl, rfl⟩ ts
    rw [if_neg h2] at hr'
    obtain ⟨i1, i2⟩ := buffered ts { r with tokens := r.tokens ++ [t], used := r.used + t.length + 1 }
      (fun x hx => hts x (List.mem_cons_of_mem _ hx)) hh
    rw [← hr'] at i1 i2
    dsimp only at i1 i2
    rw [List.length_append, List.length_singleton] at i1 i2
    have e : r.used + t.length + 1 + (ts.map fun t => t.length + 1).sum = r.used + (t.length + 1 + (ts.map fun t => t.length + 1).sum) := by omega
    rw [e] at i1 i2
    refine ⟨fun h => ?_, fun h _ _ => ?_⟩
    · rw [i1 ⟨by omega, h.2⟩]
      simp
    · have := i2 (fun hc => h ⟨by omega, hc.2⟩) (by omega) (by omega)
      exact ⟨this.1, this.2, this.3, this.4, this.5, this.6⟩

theorem annotate_stage (t : Str) (r : Reader) (h : r.handler = none ∨ r.handler = some .signature2) :
    annotate t r = stage r t ∧ ((annotate t r).handler = none ∨ (annotate t r).handler = some .signature2) := by
  rcases h with h | h
  · have e1 : annotate t r = r := by unfold annotate; rw [h]
    have e2 : stage r t = r := by unfold stage secondStage; rw [h]
    rw [e1, e2]
    exact ⟨rfl, .inl h⟩
  · have e1 : annotate t r = signatureToken t r := by unfold annotate; rw [h]
    have e2 : stage r t = signatureToken t r := by unfold stage secondStage; rw [h]; rfl
    rw [e1, e2]
    refine ⟨rfl, ?_⟩
    unfold signatureToken
    dsimp only
    have h1 : (if r.isSealed = true then r.reject .sealed else r).handler = none ∨
        (if r.isSealed = true then r.reject .sealed else r).handler = some .signature2 := by
      split
      · exact .inl rfl
      · exact .inr h
    generalize (if r.isSealed = true then r.reject .sealed else r) = r1 at *
    repeat' split
    all_goals first | exact h1 | exact .inl rfl

theorem annotate_stages : ∀ (ts : List Str) (r : Reader), r.handler = none ∨ r.handler = some .signature2 →
    ts.foldl (fun r t => annotate t r) r = ts.foldl stage r
  | [], _, _ => rfl
  | t :: ts, r, h => by
    obtain ⟨h1, h2⟩ := annotate_stage t r h
    rw [List.foldl_cons, List.foldl_cons, ← h1]
    exact annotate_stages ts _ h2

def isArrowWord (t : Str) : Bool := isDashes t || isArrow t

theorem arrowWord (k : Kind) : isArrowWord (arrow k) = true := by cases k <;> decide

theorem side_no_arrow {s : Side} (h : s.Proper) : ∀ t ∈ s.words, isArrowWord t = false := by
  have name : ∀ l, Names l → ∀ t ∈ l, isArrowWord t = false := fun l hl t ht => by
    obtain ⟨_, _, h3, h4⟩ := not_reserved (hl.2 t ht)
    unfold isArrowWord
    rw [h3, h4]; rfl
  intro t ht
  unfold Side.words at ht
  rcases List.mem_append.mp ht with ht | ht
  · exact name _ h.1 t ht
  · cases hr : s.rst with
    | none => rw [hr] at ht; cases ht
    | some l =>
      rw [hr] at ht
      rcases List.mem_cons.mp ht with rfl | ht
      · decide
      · exact name _ (h.2 l hr) t ht

/-- Where the first arrow is. -/
theorem split_arrow : ∀ ts : List Str, (∀ t ∈ ts, isArrowWord t = false) ∨
    ∃ pre a post, ts = pre ++ a :: post ∧ isArrowWord a = true ∧ ∀ t ∈ pre, isArrowWord t = false
  | [] => .inl fun _ h => (by cases h)
  | t :: ts => by
    cases h : isArrowWord t
    · rcases split_arrow ts with h1 | ⟨pre, a, post, rfl, h2, h3⟩
      · left
        intro x hx
        rcases List.mem_cons.mp hx with rfl | hx
        · exact h
        · exact h1 x hx
      · refine .inr ⟨t :: pre, a, post, rfl, h2, fun x hx => ?_⟩
        rcases List.mem_cons.mp hx with rfl | hx
        · exact h
        · exact h3 x hx
    · exact .inr ⟨[], t, ts, rfl, h, fun _ h => (by cases h)⟩

/-- The first arrow is in one place only. -/
theorem split_unique {pre pre' post post' : List Str} {a a' : Str} (h : pre ++ a :: post = pre' ++ a' :: post')
    (h1 : ∀ t ∈ pre, isArrowWord t = false) (h2 : ∀ t ∈ pre', isArrowWord t = false) (ha : isArrowWord a = true) (ha' : isArrowWord a' = true) :
    pre = pre' ∧ a = a' ∧ post = post' := by
  induction pre generalizing pre' with
  | nil =>
    cases pre' with
    | nil => simpa using h
    | cons x l =>
      have : a = x := by simpa using (List.cons.inj h).1
      rw [this, h2 x List.mem_cons_self] at ha; cases ha
  | cons x l ih =>
    cases pre' with
    | nil =>
      have : x = a' := (List.cons.inj h).1
      rw [← this, h1 x List.mem_cons_self] at ha'; cases ha'
    | cons y l' =>
      obtain ⟨e1, e2⟩ := List.cons.inj h
      obtain ⟨i1, i2, i3⟩ := ih e2 (fun t ht => h1 t (List.mem_cons_of_mem _ ht)) (fun t ht => h2 t (List.mem_cons_of_mem _ ht))
      exact ⟨by rw [e1, i1], i2, i3⟩

def SigText.draft (s : SigText) : Draft := ⟨s.ins, some (s.kind, s.outs), s.trusted⟩

theorem SigText.draft_words (s : SigText) : s.draft.words = s.words := rfl

theorem Side.words_length {s : Side} (h : s.Proper) : s.words.length ≤ 17 := by
  unfold Side.words
  have := h.1.1
  rw [List.length_append]
  cases hr : s.rst with
  | none => simp; omega
  | some l =>
    have := (h.2 l hr).1
    simp
    omega

/-- What has become of a comment when it ends. -/
theorem readBody_arrow {r : Reader} (hh : r.handler = some .signature) (ht : r.tokens = []) (hu : r.used = 0) {pre post : List Str} {a : Str}
    (ha : isArrowWord a = true) (hpre : ∀ t ∈ pre, isArrowWord t = false) :
    (pre.length ≤ 33 ∧ InBuffer pre → ∃ r1 : Reader, r1.label = r.label ∧ r1.marked = r.marked ∧ r1.queue = r.queue ∧ r1.curAddr = r.curAddr ∧
      readBody (pre ++ a :: post) r = annotationEnd ((pre ++ a :: post).foldl stage (noDraft.state r1))) ∧
    (¬ (pre.length ≤ 33 ∧ InBuffer pre) → Gone r (readBody (pre ++ a :: post) r)) := by
  have hb := buffered pre r (fun t h => by
    have := hpre t h
    unfold isArrowWord at this
    rw [Bool.or_eq_false_iff] at this
    exact this) hh
  rw [ht, hu] at hb
  simp only [List.length_nil, Nat.zero_add, List.nil_append] at hb
  unfold readBody
  rw [List.foldl_append]
  refine ⟨fun h => ?_, fun h => ?_⟩
  · rw [hb.1 h]
    generalize hr1 : ({ r with tokens := pre, used := (pre.map fun t => t.length + 1).sum } : Reader) = r1
    refine ⟨r1, by rw [← hr1], by rw [← hr1], by rw [← hr1], by rw [← hr1], ?_⟩
    have h1 : annotate a r1 = (pre ++ [a]).foldl stage (noDraft.state r1) := by
      have h1 : r1.handler = some .signature := by rw [← hr1]; exact hh
      have h2 : r1.tokens = pre := by rw [← hr1]
      unfold annotate
      rw [h1]
      simp only [show (isDashes a || isArrow a) = true from ha, if_true]
      unfold buffer
      simp only [if_true, h2]
      rw [List.foldl_append]
      have h3 : r1 = { r1 with tokens := pre } := by rw [← hr1]
      conv_rhs => rw [h3]
      rfl
    have h2 : (pre ++ a :: post).foldl stage (noDraft.state r1) = post.foldl stage ((pre ++ [a]).foldl stage (noDraft.state r1)) := by
      rw [← List.foldl_append]; simp
    rw [List.foldl_cons, h1, h2]
    congr 1
    apply annotate_stages
    rcases stage_words r1 (pre ++ [a]) with ⟨d, _, _, h⟩ | h
    · rw [h]; exact .inr rfl
    · exact .inl h.handler
  · have hg := hb.2 h (by omega) (by omega)
    have : ∀ (ts : List Str) (r' : Reader), r'.handler = none → ts.foldl (fun r t => annotate t r) r' = r' := by
      intro ts
      induction ts with
      | nil => exact fun _ _ => rfl
      | cons t ts ih =>
        intro r' h'
        rw [List.foldl_cons, show annotate t r' = r' by unfold annotate; rw [h']]
        exact ih r' h'
    rw [this _ _ hg.handler]
    unfold annotationEnd
    rw [hg.handler]
    exact hg

/-- **C56.** A comment after a label is a signature exactly when it is written like one, and then says what is written. -/
theorem C56_signature (r : Reader) (hh : r.handler = some .signature) (ht : r.tokens = []) (hu : r.used = 0)
    (hl : r.label r.curAddr = some none) (ts : List Str) :
    (∀ s : SigText, s.Proper → ts = s.words →
      (readBody ts r).label = upd r.label r.curAddr (some (some s.meaning)) ∧
      (readBody ts r).marked = (if s.trusted then r.marked else upd r.marked r.curAddr true)) ∧
    ((∀ s : SigText, s.Proper → ts ≠ s.words) →
      (readBody ts r).label = r.label ∧ (readBody ts r).marked = r.marked ∧ (readBody ts r).queue = r.queue) := by
  refine ⟨fun s hs e => ?_, fun hno => ?_⟩
  · subst e
    have e : s.words = s.ins.words ++ arrow s.kind :: (s.outs.words ++ if s.trusted then [str "!"] else []) := by
      unfold SigText.words; simp
    have hlen := Side.words_length hs.ins
    obtain ⟨r1, h1, h2, h3, h4, h5⟩ := (readBody_arrow hh ht hu (post := s.outs.words ++ if s.trusted then [str "!"] else []) (arrowWord s.kind)
      (side_no_arrow hs.ins)).1 ⟨by omega, hs.fits⟩
    rw [e, h5, ← e, ← s.draft_words, stage_draft r1 _ s.draft ⟨hs.ins, fun _ _ h => (by cases h; exact hs.outs)⟩ rfl]
    unfold annotationEnd
    rw [show (s.draft.state r1).handler = some .signature2 from rfl]
    dsimp only
    unfold signatureEnd
    rw [show (s.draft.state r1).label = r.label from h1, show (s.draft.state r1).curAddr = r.curAddr from h4, hl]
    dsimp only
    rw [show (s.draft.state r1).isSealed = s.trusted from rfl, show (s.draft.state r1).sig = s.meaning from rfl]
    cases s.trusted
    · refine ⟨rfl, ?_⟩
      simp only [Bool.false_eq_true, if_false, Reader.mark]
      rw [show (s.draft.state r1).marked = r.marked from h2]
    · exact ⟨rfl, h2⟩
  · rcases split_arrow ts with h | ⟨pre, a, post, rfl, ha, hpre⟩
    · have hb := buffered ts r (fun t ht => by
        have := h t ht
        unfold isArrowWord at this
        rw [Bool.or_eq_false_iff] at this
        exact this) hh
      rw [ht, hu] at hb
      simp only [List.length_nil, Nat.zero_add, List.nil_append] at hb
      unfold readBody
      by_cases hf : ts.length ≤ 33 ∧ (ts.map fun t => t.length + 1).sum ≤ 528
      · rw [hb.1 hf]
        unfold annotationEnd
        dsimp only
        rw [hh]
        exact ⟨rfl, rfl, rfl⟩
      · have hg := hb.2 hf (by omega) (by omega)
        unfold annotationEnd
        rw [hg.handler]
        exact ⟨hg.label, hg.marked, hg.queue⟩
    · have hb := readBody_arrow hh ht hu (post := post) ha hpre
      by_cases hf : pre.length ≤ 33 ∧ InBuffer pre
      · obtain ⟨r1, h1, h2, h3, h4, h5⟩ := hb.1 hf
        rw [h5]
        rcases stage_words r1 (pre ++ a :: post) with ⟨d, d1, d2, d3⟩ | hg
        · exfalso
          obtain ⟨ins, outs, tr⟩ := d
          cases outs with
          | none =>
            have hm : a ∈ Draft.words ⟨ins, none, tr⟩ := by rw [d2]; simp
            have hm : a ∈ ins.words ++ if tr then [str "!"] else [] := by simpa [Draft.words] using hm
            rcases List.mem_append.mp hm with hm | hm
            · rw [side_no_arrow d1.ins a hm] at ha; cases ha
            · cases tr
              · cases hm
              · rw [show a = str "!" from List.mem_singleton.mp hm] at ha
                revert ha; decide
          | some ks =>
            obtain ⟨k, s⟩ := ks
            have hw : Draft.words ⟨ins, some (k, s), tr⟩ = ins.words ++ arrow k :: (s.words ++ if tr then [str "!"] else []) := by
              simp [Draft.words]
            have := split_unique (hw.symm.trans d2) (side_no_arrow d1.ins) hpre (arrowWord k) ha
            refine hno ⟨ins, k, s, tr⟩ ⟨d1.ins, d1.outs k s rfl, ?_⟩ ?_
            · show InBuffer ins.words
              rw [this.1]; exact hf.2
            · exact d2.symm
        · unfold annotationEnd
          rw [hg.handler]
          exact ⟨hg.label.trans h1, hg.marked.trans h2, hg.queue.trans h3⟩
      · have hg := hb.2 hf
        exact ⟨hg.label, hg.marked, hg.queue⟩

/-! ## Casts -/

def Side.cast (s : Side) : Cast := { wst := s.wst.map parseValue, rst := (s.rst.getD []).map parseValue }

def Side.place (s : Side) : Place := match s.rst with | none => .wstIn | some _ => .rstIn

def Side.state (s : Side) (sl : Bool) (r : Reader) : Reader :=
  { r with handler := some .cast2, place := s.place, isSealed := sl, cast := s.cast }

theorem castToken_draft {d : Side} (hd : d.Proper) (t : Str) (ht : t ≠ str "!") (r : Reader) :
    (∃ q : Side, q.Proper ∧ q.words = d.words ++ [t] ∧ castToken t (d.state false r) = q.state false r) ∨ Gone r (castToken t (d.state false r)) := by
  obtain ⟨wi, ri⟩ := d
  unfold castToken
  simp only [Side.state, Bool.false_eq_true, if_false]
  by_cases h1 : t = str "."
  · rw [if_pos h1]
    subst h1
    cases ri with
    | none => left; exact ⟨⟨wi, some []⟩, ⟨hd.1, fun l hl => (by cases hl; exact ⟨by simp, fun _ h => (by cases h)⟩)⟩, by simp [Side.words], rfl⟩
    | some ri => right; exact ⟨rfl, rfl, rfl, rfl, rfl, rfl⟩
  rw [if_neg h1, if_neg ht]
  by_cases h3 : (isDashes t || isArrow t) = true
  · rw [if_pos h3]
    right; exact ⟨rfl, rfl, rfl, rfl, rfl, rfl⟩
  rw [if_neg h3]
  have hres := reserved_of h1 ht h3
  cases ri with
  | none =>
    simp only [Side.place, Side.cast, maxArgs, List.length_map]
    by_cases hl : wi.length < 8
    · left
      refine ⟨⟨wi ++ [t], none⟩, ⟨hd.1.snoc hl hres, fun _ h => (by cases h)⟩, by simp [Side.words], ?_⟩
      rw [if_pos hl]
      simp
    · right
      rw [if_neg hl]
      exact ⟨rfl, rfl, rfl, rfl, rfl, rfl⟩
  | some ri =>
    simp only [Side.place, Side.cast, maxArgs, List.length_map, Option.getD_some]
    by_cases hl : ri.length < 8
    · left
      refine ⟨⟨wi, some (ri ++ [t])⟩, ⟨hd.1, fun l h => (by cases h; exact (hd.2 _ rfl).snoc hl hres)⟩, by simp [Side.words], ?_⟩
      rw [if_pos hl]
      simp
    · right
      rw [if_neg hl]
      exact ⟨rfl, rfl, rfl, rfl, rfl, rfl⟩

theorem side_before {q : Side} (hq : q.Proper) {ts : List Str} {t : Str} (h : q.words = ts ++ [t]) (r : Reader) :
    ∃ d : Side, d.Proper ∧ d.words = ts ∧ castToken t (d.state false r) = q.state false r := by
  obtain ⟨wi, ri⟩ := q
  have name : ∀ (d : Side), t ∉ reserved → castToken t (d.state false r) = match d.place with
      | .rstIn => if d.cast.rst.length < 8 then { d.state false r with cast := { d.cast with rst := d.cast.rst ++ [parseValue t] } }
          else (d.state false r).reject .tooMany
      | _ => if d.cast.wst.length < 8 then { d.state false r with cast := { d.cast with wst := d.cast.wst ++ [parseValue t] } }
          else (d.state false r).reject .tooMany := by
    intro d ht
    obtain ⟨h1, h2, h3, h4⟩ := not_reserved ht
    unfold castToken
    simp only [Side.state, Bool.false_eq_true, if_false, if_neg h1, if_neg h2, h3, h4, Bool.or_false, maxArgs]
    rfl
  rcases Side.snoc_words h with ⟨e0, l, e1, e2⟩ | ⟨e0, e1, e2⟩ | ⟨l, e1, e2⟩
  · have e0 : ri = none := e0
    have e1 : wi = l ++ [t] := e1
    subst e0 e1 e2
    obtain ⟨n1, n2, n3⟩ := hq.1.init
    refine ⟨⟨ts, none⟩, ⟨n1, fun _ h => (by cases h)⟩, by simp [Side.words], ?_⟩
    rw [name _ n3]
    simp only [Side.place, Side.cast, List.length_map]
    rw [if_pos n2]
    simp [Side.state, Side.place, Side.cast]
  · have e0 : ri = some [] := e0
    subst e0 e1 e2
    refine ⟨⟨ts, none⟩, ⟨hq.1, fun _ h => (by cases h)⟩, by simp [Side.words], ?_⟩
    unfold castToken
    simp only [Side.state, Bool.false_eq_true, if_false, if_true]
    rfl
  · have e1 : ri = some (l ++ [t]) := e1
    subst e1 e2
    obtain ⟨n1, n2, n3⟩ := (hq.2 _ rfl).init
    refine ⟨⟨wi, some l⟩, ⟨hq.1, fun _ h => (by cases h; exact n1)⟩, by simp [Side.words], ?_⟩
    rw [name _ n3]
    simp only [Side.place, Side.cast, List.length_map, Option.getD_some]
    rw [if_pos n2]
    simp [Side.state, Side.place, Side.cast]

/-- One word of a cast in the second stage. -/
def castStage (r : Reader) (t : Str) : Reader := secondStage .cast2 t r

def noSide : Side := ⟨[], none⟩

theorem castStage_gone {r r' : Reader} (h : Gone r r') : ∀ ts : List Str, ts.foldl castStage r' = r'
  | [] => rfl
  | t :: ts => by
    rw [List.foldl_cons, show castStage r' t = r' by unfold castStage secondStage; rw [h.handler]]
    exact castStage_gone h ts

theorem castStage_state (d : Side) (b : Bool) (t : Str) (r : Reader) : castStage (d.state b r) t = castToken t (d.state b r) := rfl

theorem castStage_words (r : Reader) : ∀ ts : List Str, (∀ t ∈ ts, t ≠ str "!") →
    (∃ d : Side, d.Proper ∧ d.words = ts ∧ ts.foldl castStage (noSide.state false r) = d.state false r) ∨
      Gone r (ts.foldl castStage (noSide.state false r)) := by
  intro ts
  induction ts using List.reverseRecOn with
  | nil => exact fun _ => .inl ⟨noSide, ⟨⟨by simp [noSide], fun _ h => (by cases h)⟩, fun _ h => (by cases h)⟩, rfl, rfl⟩
  | append_singleton ts t ih =>
    intro hts
    rw [List.foldl_append]
    rcases ih (fun x hx => hts x (List.mem_append_left _ hx)) with ⟨d, h1, h2, h3⟩ | h
    · rw [h3]
      show _ ∨ Gone r (castToken t (d.state false r))
      rcases castToken_draft h1 t (hts t (by simp)) r with ⟨q, q1, q2, q3⟩ | g
      · exact .inl ⟨q, q1, by rw [q2, h2], q3⟩
      · exact .inr g
    · rw [castStage_gone h]
      exact .inr h

theorem castStage_side (r : Reader) : ∀ (ts : List Str) (q : Side), q.Proper → q.words = ts →
    ts.foldl castStage (noSide.state false r) = q.state false r := by
  intro ts
  induction ts using List.reverseRecOn with
  | nil =>
    intro q _ h
    obtain ⟨wi, ri⟩ := q
    unfold Side.words at h
    rw [List.append_eq_nil_iff] at h
    obtain ⟨h4, h5⟩ := h
    cases ri with
    | some l => exact absurd h5 (by simp)
    | none =>
      have h4 : wi = [] := h4
      subst h4
      rfl
  | append_singleton ts t ih =>
    intro q hq h
    obtain ⟨d, d1, d2, d3⟩ := side_before hq h r
    rw [List.foldl_append, ih d d1 d2]
    exact d3

theorem castBuffered : ∀ (ts : List Str) (r : Reader), (∀ t ∈ ts, t ≠ str "!") → r.handler = some .cast →
    let r' := ts.foldl (fun r t => annotate t r) r
    (r.tokens.length + ts.length ≤ 33 ∧ r.used + (ts.map fun t => t.length + 1).sum ≤ 528 →
      r' = { r with tokens := r.tokens ++ ts, used := r.used + (ts.map fun t => t.length + 1).sum }) ∧
    (¬ (r.tokens.length + ts.length ≤ 33 ∧ r.used + (ts.map fun t => t.length + 1).sum ≤ 528) → r.tokens.length ≤ 33 → r.used ≤ 528 → Gone r r')
  | [], r, _, _ => by
    refine ⟨fun _ => by simp, fun h h1 h2 => absurd ⟨?_, ?_⟩ h⟩
    · simpa using h1
    · simpa using h2
  | t :: ts, r, hts, hh => by
    have d1 : (t == str "!") = false := by simpa using hts t List.mem_cons_self
    have gone : ∀ (r r' : Reader), Gone r r' → ∀ ts : List Str, Gone r (ts.foldl (fun r t => annotate t r) r') := by
      intro r r' hg ts
      induction ts with
      | nil => exact hg
      | cons t ts ih =>
        rw [List.foldl_cons, show annotate t r' = r' by unfold annotate; rw [hg.handler]]
        exact ih
    have hstep : annotate t r = if r.tokens.length < 33 then
        if r.used + t.length + 1 > 528 then { r with handler := none }
        else { r with tokens := r.tokens ++ [t], used := r.used + t.length + 1 }
      else { r with handler := none } := by
      unfold annotate
      rw [hh]
      simp only [d1, Bool.false_eq_true, if_false]
      unfold buffer
      rw [if_neg (by simp), show maxTokens = 33 from rfl, show tmpSize = 528 from rfl, hh]
    intro r'
    have hr' : r' = ts.foldl (fun r t => annotate t r) (annotate t r) := rfl
    rw [hstep] at hr'
    rw [List.map_cons, List.sum_cons, List.length_cons]
    by_cases h1 : r.tokens.length < 33
    swap
    · rw [if_neg h1] at hr'
      refine ⟨fun h => absurd h.1 (by omega), fun _ _ _ => ?_⟩
      rw [hr']
      exact gone r { r with handler := none } ⟨rfl, rfl, rfl, rfl, rfl, rfl⟩ ts
    rw [if_pos h1] at hr'
    by_cases h2 : r.used + t.length + 1 > 528
    · rw [if_pos h2] at hr'
      refine ⟨fun h => absurd h.2 (by omega), fun _ _ _ => ?_⟩
      rw [hr']
      exact gone r { r with handler := none } ⟨rfl, rfl, rfl, rfl, rfl, rfl⟩ ts
    rw [if_neg h2] at hr'
    obtain ⟨i1, i2⟩ := castBuffered ts { r with tokens := r.tokens ++ [t], used := r.used + t.length + 1 }
      (fun x hx => hts x (List.mem_cons_of_mem _ hx)) hh
    rw [← hr'] at i1 i2
    dsimp only at i1 i2
    rw [List.length_append, List.length_singleton] at i1 i2
    have e : r.used + t.length + 1 + (ts.map fun t => t.length + 1).sum = r.used + (t.length + 1 + (ts.map fun t => t.length + 1).sum) := by omega
    rw [e] at i1 i2
    refine ⟨fun h => ?_, fun h _ _ => ?_⟩
    · rw [i1 ⟨by omega, h.2⟩]
      simp
    · have := i2 (fun hc => h ⟨by omega, hc.2⟩) (by omega) (by omega)
      exact ⟨this.1, this.2, this.3, this.4, this.5, this.6⟩

/-- **C56.** A comment after an opcode, a number, a reference or a text is a cast exactly when it is written like one: the values of
the working stack, perhaps a dot and the values of the return stack, and an exclamation mark. -/
theorem C56_cast (r : Reader) (hh : r.handler = some .cast) (ht : r.tokens = []) (hu : r.used = 0)
    (hl : r.casts r.curAddr = none) (ts : List Str) :
    (∀ s : Side, s.Proper → InBuffer s.words → ts = s.words ++ [str "!"] →
      (readBody ts r).casts = upd r.casts r.curAddr (some s.cast)) ∧
    ((∀ s : Side, s.Proper → InBuffer s.words → ts ≠ s.words ++ [str "!"]) → (readBody ts r).casts = r.casts) := by
  have nowhere : ∀ s : Side, s.Proper → ∀ t ∈ s.words, t ≠ str "!" := by
    intro s hs t ht
    have name : ∀ l, Names l → ∀ t ∈ l, t ≠ str "!" := fun l hl t ht => (not_reserved (hl.2 t ht)).2.1
    unfold Side.words at ht
    rcases List.mem_append.mp ht with ht | ht
    · exact name _ hs.1 t ht
    · cases hr : s.rst with
      | none => rw [hr] at ht; cases ht
      | some l =>
        rw [hr] at ht
        rcases List.mem_cons.mp ht with rfl | ht
        · decide
        · exact name _ (hs.2 l hr) t ht
  have trigger : ∀ (pre : List Str) (r1 : Reader), r1.handler = some .cast → r1.tokens = pre →
      annotate (str "!") r1 = castStage (pre.foldl castStage (noSide.state false r1)) (str "!") := by
    intro pre r1 h1 h2
    have h3 : r1 = { r1 with tokens := pre } := by rw [← h2]
    unfold annotate
    rw [h1]
    simp only [beq_self_eq_true, if_true]
    unfold buffer
    simp only [if_true, h2]
    conv_rhs => rw [h3]
    rfl
  have last : ∀ (s : Side) (r1 : Reader), castStage (s.state false r1) (str "!") = s.state true r1 := by
    intro s r1
    unfold castStage secondStage
    show castToken (str "!") (s.state false r1) = _
    unfold castToken
    simp only [Side.state, Bool.false_eq_true, if_false]
    rw [if_neg (by decide), if_true]
  have end_gone : ∀ {r r' : Reader}, Gone r r' → ∀ ts : List Str, (annotationEnd (ts.foldl (fun r t => annotate t r) r')).casts = r.casts := by
    intro r r' hg ts
    have : ts.foldl (fun r t => annotate t r) r' = r' := by
      induction ts with
      | nil => rfl
      | cons t ts ih =>
        rw [List.foldl_cons, show annotate t r' = r' by unfold annotate; rw [hg.handler]]
        exact ih
    rw [this]
    unfold annotationEnd
    rw [hg.handler]
    exact hg.casts
  refine ⟨fun s hs hfit e => ?_, fun hno => ?_⟩
  · subst e
    have hlen := Side.words_length hs
    have hb := (castBuffered s.words r (nowhere s hs) hh).1 (by
      rw [ht, hu]
      exact ⟨by simp; omega, by rw [Nat.zero_add]; exact hfit⟩)
    unfold readBody
    rw [List.foldl_append, hb]
    generalize hr1 : ({ r with tokens := r.tokens ++ s.words, used := r.used + (s.words.map fun t => t.length + 1).sum } : Reader) = r1
    show (annotationEnd (annotate (str "!") r1)).casts = _
    rw [trigger s.words r1 (by rw [← hr1]; exact hh) (by rw [← hr1]; simp [ht]), castStage_side _ _ s hs rfl, last]
    unfold annotationEnd
    rw [show (s.state true r1).handler = some .cast2 from rfl]
    dsimp only
    unfold castEnd
    rw [show (s.state true r1).casts = r.casts by rw [← hr1]; rfl, show (s.state true r1).curAddr = r.curAddr by rw [← hr1]; rfl, hl]
    rfl
  · by_cases hex : str "!" ∈ ts
    swap
    · have hb := castBuffered ts r (fun t h e => hex (e ▸ h)) hh
      rw [ht, hu] at hb
      simp only [List.length_nil, Nat.zero_add, List.nil_append] at hb
      unfold readBody
      by_cases hf : ts.length ≤ 33 ∧ (ts.map fun t => t.length + 1).sum ≤ 528
      · rw [hb.1 hf]
        unfold annotationEnd
        dsimp only
        rw [hh]
      · exact end_gone (hb.2 hf (by omega) (by omega)) []
    · obtain ⟨pre, post, rfl, hpre⟩ := List.eq_append_cons_of_mem hex
      have hpre' : ∀ t ∈ pre, t ≠ str "!" := fun t h e => hpre (e ▸ h)
      have hb := castBuffered pre r hpre' hh
      rw [ht, hu] at hb
      simp only [List.length_nil, Nat.zero_add, List.nil_append] at hb
      unfold readBody
      rw [List.foldl_append]
      by_cases hf : pre.length ≤ 33 ∧ (pre.map fun t => t.length + 1).sum ≤ 528
      swap
      · exact end_gone (hb.2 hf (by omega) (by omega)) _
      rw [hb.1 hf, List.foldl_cons]
      generalize hr1 : ({ r with tokens := pre, used := (pre.map fun t => t.length + 1).sum } : Reader) = r1
      have hc1 : r1.casts = r.casts := by rw [← hr1]
      rw [trigger pre r1 (by rw [← hr1]; exact hh) (by rw [← hr1]), ← hc1]
      rcases castStage_words r1 pre hpre' with ⟨d, d1, d2, d3⟩ | hg
      swap
      · rw [show castStage (pre.foldl castStage (noSide.state false r1)) (str "!") = _ from castStage_gone hg [str "!"]]
        exact end_gone hg post
      rw [d3, last]
      cases post with
      | nil => exact absurd (by rw [d2]) (hno d d1 (by rw [d2]; exact hf.2))
      | cons t post =>
        have hg : Gone r1 (annotate t (d.state true r1)) := by
          show Gone r1 (castToken t (d.state true r1))
          unfold castToken
          simp only [Side.state, if_true, Reader.reject]
          repeat' split
          all_goals exact ⟨rfl, rfl, rfl, rfl, rfl, rfl⟩
        exact end_gone hg post

/-! ## Values -/

/-- A value: a name, in brackets if it is an address, with a star if it is a short. -/
structure ValueText where
  name : Str
  address : Bool
  short : Bool

def ValueText.word (v : ValueText) : Str :=
  (if v.address then ch '[' :: v.name ++ [ch ']'] else v.name) ++ if v.short then [ch '*'] else []

/-- A name without brackets is not empty, does not look like an address, and does not end with a star. -/
structure ValueText.Proper (v : ValueText) : Prop where
  plain : v.address = false → v.name ≠ [] ∧ ¬ (v.name.head? = some (ch '[') ∧ v.name.getLast? = some (ch ']')) ∧ v.name.getLast? ≠ some (ch '*')

/-- An upper case letter of ASCII. -/
def upper (b : Byte) : Bool := decide (0x41 ≤ b.toNat ∧ b.toNat ≤ 0x5a)

theorem parseValue_eq (w : Str) : parseValue w =
    let short := w.getLast? == some (ch '*')
    let core := if short then w.dropLast else w
    let address := core.head? == some (ch '[') && core.getLast? == some (ch ']')
    { short := short, address := address, nominal := w.head?.any upper
      type := if w.head?.any upper then (if address then (core.drop 1).dropLast else core) else [] } := by
  cases w <;> rfl

/-- **C56.** A value says its size, whether it is an address, and, if it begins with a capital, its type. -/
theorem C56_value (v : ValueText) (hv : v.Proper) :
    parseValue v.word = { short := v.short, address := v.address, nominal := v.word.head?.any upper
                          type := if v.word.head?.any upper then v.name else [] } := by
  obtain ⟨name, addr, short⟩ := v
  rw [parseValue_eq]
  cases addr with
  | true =>
    have h1 : (ch '[' :: name ++ [ch ']']).getLast? = some (ch ']') := List.getLast?_concat
    have h2 : ((ch '[' :: (name ++ [ch ']'])).drop 1).dropLast = name := by simp
    cases short with
    | false =>
      simp only [ValueText.word, if_true, Bool.false_eq_true, if_false, List.append_nil]
      rw [h1]
      rw [show (some (ch ']') == some (ch '*')) = false by decide]
      simp only [Bool.false_eq_true, if_false, h1]
      simp [h2]
      rfl
    | true =>
      simp only [ValueText.word, if_true]
      rw [List.getLast?_concat]
      simp only [beq_self_eq_true, if_true, List.dropLast_concat, h1]
      simp [h2]
  | false =>
    obtain ⟨hn, hb, hs⟩ := hv.plain rfl
    have hb' : (name.head? == some (ch '[') && name.getLast? == some (ch ']')) = false := by
      rw [Bool.eq_false_iff]
      intro h
      rw [Bool.and_eq_true, beq_iff_eq, beq_iff_eq] at h
      exact hb h
    cases short with
    | false =>
      simp only [ValueText.word, Bool.false_eq_true, if_false, List.append_nil]
      rw [show (name.getLast? == some (ch '*')) = false by simpa using hs]
      simp only [Bool.false_eq_true, if_false, hb']
    | true =>
      simp only [ValueText.word, Bool.false_eq_true, if_false, if_true]
      rw [List.getLast?_concat]
      simp only [beq_self_eq_true, if_true, List.dropLast_concat, hb', Bool.false_eq_true, if_false]

/-! ## The comment as the assembler reports it -/

/-- A label that is not generated, and after it the comment `( ts )`, as they are reported to the checker. -/
def labelled (a : Short) (l o c : SymInfo) (ts : List SymInfo) : List (Short × SymInfo) :=
  (a, l) :: (a, o) :: ts.map (fun i => (a, i)) ++ [(a, c)]

/-- The parts of such a comment: it begins with `(` at depth 0, and what is inside has depth 1. -/
structure Comment (l o c : SymInfo) (ts : List SymInfo) : Prop where
  label : l.type = .label ∧ l.generated = false
  opens : o.type = .comment ∧ o.id = 0 ∧ (o.name.getD []).length = 1
  closes : c.type = .comment ∧ c.id = 1 ∧ c.name.getD [] = str ")"
  inside : ∀ t ∈ ts, t.type = .comment ∧ t.id = 1 ∧ t.name.getD [] ≠ str ")"

/-- **C56.** A signature in the source is in force, whatever was read before, unless the address already has one. -/
theorem C56_labelled (r : Reader) (a : Short) (l o c : SymInfo) (ts : List SymInfo) (hc : Comment l o c ts)
    (hl : r.label a = none ∨ r.label a = some none) (s : SigText) (hs : s.Proper) (hts : ts.map (fun i => i.name.getD []) = s.words) :
    let r' := (labelled a l o c ts).foldl (fun r e => handleSymbol e.1 e.2 r) r
    r'.label a = some (some s.meaning) ∧ (r'.marked a = true ↔ s.trusted = false ∨ r.marked a = true) := by
  intro r'
  have e1 : ∃ r1 : Reader, r1.curType = .label ∧ r1.curGenerated = false ∧ r1.curAddr = a ∧ r1.hasCur = true ∧ r1.label a = some none ∧
      r1.marked = r.marked ∧ handleSymbol a l r = r1 := by
    refine ⟨_, ?_, ?_, ?_, ?_, ?_, ?_, rfl⟩ <;> unfold handleSymbol <;> rw [hc.label.1] <;> simp only [hc.label.2, Bool.false_eq_true, if_false] <;>
      unfold Reader.ensure <;> dsimp only <;> rcases hl with h | h <;> rw [h]
    · exact upd_same _ _ _
    · exact h
  obtain ⟨r1, f1, f2, f3, f4, f5, f6, f7⟩ := e1
  have e2 : handleSymbol a o r1 = { r1 with used := 0, tokens := [], handler := some .signature } := by
    unfold handleSymbol
    rw [hc.opens.1]
    unfold handleComment
    dsimp only
    rw [if_pos hc.opens.2.1, if_pos ⟨hc.opens.2.2, f4⟩]
    rw [if_pos ⟨f1, by rw [f2]; simp⟩]
  have e3 : ∀ (ts : List SymInfo) (r : Reader), (∀ t ∈ ts, t.type = .comment ∧ t.id = 1 ∧ t.name.getD [] ≠ str ")") →
      (ts.map fun i => (a, i)).foldl (fun r e => handleSymbol e.1 e.2 r) r =
        (ts.map fun i => i.name.getD []).foldl (fun r t => annotate t r) r := by
    intro ts
    induction ts with
    | nil => exact fun _ _ => rfl
    | cons t ts ih =>
      intro r h
      obtain ⟨t1, t2, t3⟩ := h t List.mem_cons_self
      rw [List.map_cons, List.map_cons, List.foldl_cons, List.foldl_cons]
      have : handleSymbol (a, t).1 (a, t).2 r = annotate (t.name.getD []) r := by
        unfold handleSymbol
        rw [t1]
        unfold handleComment
        dsimp only
        rw [if_neg (by rw [t2]; decide), if_neg (fun h => t3 h.2), if_pos t2]
      rw [this]
      exact ih _ (fun t ht => h t (List.mem_cons_of_mem _ ht))
  have e4 : ∀ r, handleSymbol a c r = annotationEnd r := by
    intro r
    unfold handleSymbol
    rw [hc.closes.1]
    unfold handleComment
    dsimp only
    rw [if_neg (by rw [hc.closes.2.1]; decide), if_pos ⟨hc.closes.2.1, hc.closes.2.2⟩]
  have hr' : r' = readBody s.words { r1 with used := 0, tokens := [], handler := some .signature } := by
    show ((a, l) :: (a, o) :: (ts.map fun i => (a, i)) ++ [(a, c)]).foldl _ r = _
    rw [List.cons_append, List.cons_append, List.foldl_cons, List.foldl_cons, List.foldl_append]
    dsimp only
    rw [f7, e2, e3 ts _ hc.inside, hts]
    show handleSymbol a c _ = _
    rw [e4]
    rfl
  have h := (C56_signature { r1 with used := 0, tokens := [], handler := some .signature } rfl rfl rfl (by
    show r1.label r1.curAddr = _
    rw [f3]; exact f5) s.words).1 s hs rfl
  rw [hr', h.1, h.2]
  dsimp only
  rw [f3, f6, upd_same]
  refine ⟨rfl, ?_⟩
  cases s.trusted
  · simp only [Bool.false_eq_true, if_false, upd_same]; simp
  · simp

/-! ## Cases -/

/-- `( a* [b] . -- c . d !`. -/
def caseSig : SigText :=
  ⟨⟨[str "a*", str "[b]"], some []⟩, .subroutine, ⟨[str "c"], some [str "d"]⟩, true⟩

example : caseSig.Proper ∧ caseSig.words = [str "a*", str "[b]", str ".", str "--", str "c", str ".", str "d", str "!"] := by
  refine ⟨⟨⟨⟨by decide, by decide⟩, fun l h => (by cases h; exact ⟨by decide, by decide⟩)⟩,
    ⟨⟨by decide, by decide⟩, fun l h => (by cases h; exact ⟨by decide, by decide⟩)⟩, by unfold InBuffer; decide⟩, by decide⟩

example : ∃ r : Reader, r.handler = some .signature ∧ r.tokens = [] ∧ r.used = 0 ∧ r.label r.curAddr = some none ∧
    (readBody caseSig.words r).label r.curAddr = some (some caseSig.meaning) :=
  ⟨{ Reader.begin with handler := some .signature, label := fun _ => some none }, rfl, rfl, rfl, rfl, by decide +kernel⟩

/-- A name of 47 characters, the longest the assembler allows. -/
def longName : Str := List.replicate 47 (ch 'x')

/-- Finding: with eight long names on the working stack and three on the return stack the buffer is full; the label is left without a
signature and nobody is told. -/
theorem C56_long_signature_ignored :
    let r : Reader := { Reader.begin with handler := some .signature, label := fun _ => some none }
    let r' := readBody (List.replicate 8 longName ++ [str "."] ++ List.replicate 3 longName ++ [str "--"]) r
    r'.label r.curAddr = some none ∧ r'.log = [] := by
  decide +kernel

end Buxn.Chess
