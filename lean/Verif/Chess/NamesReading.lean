import Verif.Chess.Names
/-!
# Names and positions in the type checker (C90): what is read

Two lists of symbols that differ in names and positions, and two runs of the reader of annotations on them.
-/
namespace Buxn.Chess.Names
open Buxn.Asm (Str SymType SymInfo Region ch str)

/-! ## Specification -/

/-- The words with a meaning of their own in an annotation. -/
def marks : List Str := [str ".", str "!", str "--", str "->"]

/-- Two words of an annotation: the same mark, or values that differ in the name of their type only. -/
def Token (N : Naming) (t t' : Str) : Prop := (t' = t ∧ t ∈ marks) ∨ (t ∉ marks ∧ t' ∉ marks ∧ WR N (parseValue t) (parseValue t'))

/-- Whether two symbols are written at the same place. -/
def SamePlace (r q : Region) : Prop := r.file = q.file ∧ r.start.byte = q.start.byte ∧ r.stop.byte = q.stop.byte

/-- How positions are moved: places that are the same stay the same, and places that are not stay different. -/
structure Moving where
  place : Region → Region → Prop
  apart : ∀ r r' q q', place r r' → place q q' → (SamePlace r q ↔ SamePlace r' q')

/-- Two symbols outside of comments. -/
structure SymbolR (N : Naming) (M : Moving) (i i' : SymInfo) : Prop where
  type : i'.type = i.type
  outside : i.type ≠ .comment
  generated : i'.generated = i.generated
  ref : i.type = .labelRef → N.label (i.name.getD (str "@")) (i'.name.getD (str "@"))
  place : M.place i.region i'.region

/-- Two words of a comment. What is written in inner parentheses, or in prose, may be anything. -/
structure WordR (N : Naming) (i i' : SymInfo) : Prop where
  type : i.type = .comment ∧ i'.type = .comment
  depth : i'.id = i.id
  inside : i.id ≠ 0
  goesOn : i.id = 1 → i.name.getD [] ≠ str ")" ∧ i'.name.getD [] ≠ str ")"
  word : i.id = 1 → Token N (i.name.getD []) (i'.name.getD [])

/-- The room that words take. -/
def total (l : List SymInfo) : Nat := (l.map fun i => (i.name.getD []).length + 1).sum

/-- Two lists of symbols that differ in names and positions. The words of a comment fill the buffer of the checker at the same word, if at all. -/
inductive Alike (N : Naming) (M : Moving) : List (Short × SymInfo) → List (Short × SymInfo) → Prop
  | done : Alike N M [] []
  | symbol {a : Short} {i i' : SymInfo} {l l' : List (Short × SymInfo)} : SymbolR N M i i' → Alike N M l l' → Alike N M ((a, i) :: l) ((a, i') :: l')
  | comment {a a' : Short} {o o' c c' : SymInfo} {ws ws' : List (Short × SymInfo)} {l l' : List (Short × SymInfo)} :
      o.type = .comment → o'.type = .comment → o.id = 0 → o'.id = 0 → ((o.name.getD []).length = 1 ↔ (o'.name.getD []).length = 1) →
      List.Forall₂ (WordR N) (ws.map Prod.snd) (ws'.map Prod.snd) →
      (∀ k, total ((ws.map Prod.snd).take k) ≤ tmpSize ↔ total ((ws'.map Prod.snd).take k) ≤ tmpSize) →
      c.type = .comment → c'.type = .comment → c.id = 1 → c'.id = 1 → c.name.getD [] = str ")" → c'.name.getD [] = str ")" →
      Alike N M l l' → Alike N M ((a, o) :: ws ++ (a, c) :: l) ((a', o') :: ws' ++ (a', c') :: l')

/-! ## Readers -/

variable {N : Naming} {M : Moving}

inductive LastR (N : Naming) (M : Moving) : Sym × SymInfo → Sym × SymInfo → Prop
  | mk {s s' : Sym} {i i' : SymInfo} : SymR N s s' → i'.type = i.type → M.place i.region i'.region → LastR N M (s, i) (s', i')

inductive RR (N : Naming) (M : Moving) : Reader → Reader → Prop
  | mk (r : Reader) (sig : Sig) (cast : Cast) (tokens : List Str) (used : Nat) (sym : Short → Option Sym) (last : Option (Sym × SymInfo)) (label : Short → Option (Option Sig))
      (casts : Short → Option Cast) (queue : List Entry) (hsig : SigR N r.sig sig) (hcast : CastR N r.cast cast) (htok : List.Forall₂ (Token N) r.tokens tokens)
      (hsym : ∀ a, OptR (SymR N) (r.sym a) (sym a)) (hlast : OptR (LastR N M) r.last last) (hlabel : ∀ a, OptR (OptR (SigR N)) (r.label a) (label a))
      (hcasts : ∀ a, OptR (CastR N) (r.casts a) (casts a)) (hqueue : List.Forall₂ (ER N) r.queue queue) :
      RR N M r { r with sig := sig, cast := cast, tokens := tokens, used := used, sym := sym, last := last, label := label, casts := casts, queue := queue }

variable {r r' : Reader}

theorem RR.handler (h : RR N M r r') : r'.handler = r.handler := by cases h; rfl
theorem RR.curType (h : RR N M r r') : r'.curType = r.curType := by cases h; rfl
theorem RR.curGenerated (h : RR N M r r') : r'.curGenerated = r.curGenerated := by cases h; rfl
theorem RR.curAddr (h : RR N M r r') : r'.curAddr = r.curAddr := by cases h; rfl
theorem RR.hasCur (h : RR N M r r') : r'.hasCur = r.hasCur := by cases h; rfl
theorem RR.placeEq (h : RR N M r r') : r'.place = r.place := by cases h; rfl
theorem RR.isSealed (h : RR N M r r') : r'.isSealed = r.isSealed := by cases h; rfl
theorem RR.nextSym (h : RR N M r r') : r'.nextSym = r.nextSym := by cases h; rfl
theorem RR.nextTrace (h : RR N M r r') : r'.nextTrace = r.nextTrace := by cases h; rfl
theorem RR.keys (h : RR N M r r') : r'.keys = r.keys := by cases h; rfl
theorem RR.marked (h : RR N M r r') : r'.marked = r.marked := by cases h; rfl
theorem RR.log (h : RR N M r r') : r'.log = r.log := by cases h; rfl
theorem RR.sig (h : RR N M r r') : SigR N r.sig r'.sig := by cases h; assumption
theorem RR.cast (h : RR N M r r') : CastR N r.cast r'.cast := by cases h; assumption
theorem RR.tokens (h : RR N M r r') : List.Forall₂ (Token N) r.tokens r'.tokens := by cases h; assumption
theorem RR.sym (h : RR N M r r') : ∀ a, OptR (SymR N) (r.sym a) (r'.sym a) := by cases h; assumption
theorem RR.last (h : RR N M r r') : OptR (LastR N M) r.last r'.last := by cases h; assumption
theorem RR.label (h : RR N M r r') : ∀ a, OptR (OptR (SigR N)) (r.label a) (r'.label a) := by cases h; assumption
theorem RR.casts (h : RR N M r r') : ∀ a, OptR (CastR N) (r.casts a) (r'.casts a) := by cases h; assumption
theorem RR.queue (h : RR N M r r') : List.Forall₂ (ER N) r.queue r'.queue := by cases h; assumption

theorem RR.setHandler (h : RR N M r r') (x : Option Handler) : RR N M { r with handler := x } { r' with handler := x } := by
  cases h with
  | mk sig cast tokens used sym last label casts queue h1 h2 h3 h4 h5 h6 h7 h8 =>
    exact .mk { r with handler := x } sig cast tokens used sym last label casts queue h1 h2 h3 h4 h5 h6 h7 h8
theorem RR.setPlace (h : RR N M r r') (x : Place) : RR N M { r with place := x } { r' with place := x } := by
  cases h with
  | mk sig cast tokens used sym last label casts queue h1 h2 h3 h4 h5 h6 h7 h8 =>
    exact .mk { r with place := x } sig cast tokens used sym last label casts queue h1 h2 h3 h4 h5 h6 h7 h8
theorem RR.setSealed (h : RR N M r r') (x : Bool) : RR N M { r with isSealed := x } { r' with isSealed := x } := by
  cases h with
  | mk sig cast tokens used sym last label casts queue h1 h2 h3 h4 h5 h6 h7 h8 =>
    exact .mk { r with isSealed := x } sig cast tokens used sym last label casts queue h1 h2 h3 h4 h5 h6 h7 h8
theorem RR.complain (h : RR N M r r') (x : Complaint) : RR N M { r with log := r.log ++ [x] } { r' with log := r'.log ++ [x] } := by
  cases h with
  | mk sig cast tokens used sym last label casts queue h1 h2 h3 h4 h5 h6 h7 h8 =>
    exact .mk { r with log := r.log ++ [x] } sig cast tokens used sym last label casts queue h1 h2 h3 h4 h5 h6 h7 h8
theorem RR.setSig (h : RR N M r r') {x x' : Sig} (hx : SigR N x x') : RR N M { r with sig := x } { r' with sig := x' } := by
  cases h with
  | mk sig cast tokens used sym last label casts queue h1 h2 h3 h4 h5 h6 h7 h8 =>
    exact .mk { r with sig := x } x' cast tokens used sym last label casts queue hx h2 h3 h4 h5 h6 h7 h8
theorem RR.setCast (h : RR N M r r') {x x' : Cast} (hx : CastR N x x') : RR N M { r with cast := x } { r' with cast := x' } := by
  cases h with
  | mk sig cast tokens used sym last label casts queue h1 h2 h3 h4 h5 h6 h7 h8 =>
    exact .mk { r with cast := x } sig x' tokens used sym last label casts queue h1 hx h3 h4 h5 h6 h7 h8
theorem RR.setTokens (h : RR N M r r') {x x' : List Str} (hx : List.Forall₂ (Token N) x x') (u u' : Nat) :
    RR N M { r with tokens := x, used := u } { r' with tokens := x', used := u' } := by
  cases h with
  | mk sig cast tokens used sym last label casts queue h1 h2 h3 h4 h5 h6 h7 h8 =>
    exact .mk { r with tokens := x, used := u } sig cast x' u' sym last label casts queue h1 h2 hx h4 h5 h6 h7 h8
theorem RR.setLabel (h : RR N M r r') {x x' : Short → Option (Option Sig)} (hx : ∀ a, OptR (OptR (SigR N)) (x a) (x' a)) (k : List Short) :
    RR N M { r with label := x, keys := k } { r' with label := x', keys := k } := by
  cases h with
  | mk sig cast tokens used sym last label casts queue h1 h2 h3 h4 h5 h6 h7 h8 =>
    exact .mk { r with label := x, keys := k } sig cast tokens used sym last x' casts queue h1 h2 h3 h4 h5 hx h7 h8
theorem RR.setLabel1 (h : RR N M r r') {x x' : Short → Option (Option Sig)} (hx : ∀ a, OptR (OptR (SigR N)) (x a) (x' a)) :
    RR N M { r with label := x } { r' with label := x' } := by
  cases h with
  | mk sig cast tokens used sym last label casts queue h1 h2 h3 h4 h5 h6 h7 h8 =>
    exact .mk { r with label := x } sig cast tokens used sym last x' casts queue h1 h2 h3 h4 h5 hx h7 h8
theorem RR.setCasts (h : RR N M r r') {x x' : Short → Option Cast} (hx : ∀ a, OptR (CastR N) (x a) (x' a)) : RR N M { r with casts := x } { r' with casts := x' } := by
  cases h with
  | mk sig cast tokens used sym last label casts queue h1 h2 h3 h4 h5 h6 h7 h8 =>
    exact .mk { r with casts := x } sig cast tokens used sym last label x' queue h1 h2 h3 h4 h5 h6 hx h8
theorem RR.setCur (h : RR N M r r') (t : SymType) (g : Bool) (a : Short) :
    RR N M { r with curType := t, curGenerated := g, curAddr := a, handler := none, hasCur := true } { r' with curType := t, curGenerated := g, curAddr := a, handler := none, hasCur := true } := by
  cases h with
  | mk sig cast tokens used sym last label casts queue h1 h2 h3 h4 h5 h6 h7 h8 =>
    exact .mk { r with curType := t, curGenerated := g, curAddr := a, handler := none, hasCur := true } sig cast tokens used sym last label casts queue h1 h2 h3 h4 h5 h6 h7 h8
theorem RR.setNoCur (h : RR N M r r') : RR N M { r with hasCur := false } { r' with hasCur := false } := by
  cases h with
  | mk sig cast tokens used sym last label casts queue h1 h2 h3 h4 h5 h6 h7 h8 =>
    exact .mk { r with hasCur := false } sig cast tokens used sym last label casts queue h1 h2 h3 h4 h5 h6 h7 h8
theorem RR.setLow (h : RR N M r r') (a : Short) :
    RR N M { r with lowCode := r.lowCode || decide (a.toNat < 256) } { r' with lowCode := r'.lowCode || decide (a.toNat < 256) } := by
  cases h with
  | mk sig cast tokens used sym last label casts queue h1 h2 h3 h4 h5 h6 h7 h8 =>
    exact .mk { r with lowCode := r.lowCode || decide (a.toNat < 256) } sig cast tokens used sym last label casts queue h1 h2 h3 h4 h5 h6 h7 h8
theorem RR.setSym (h : RR N M r r') {x x' : Short → Option Sym} (hx : ∀ a, OptR (SymR N) (x a) (x' a)) : RR N M { r with sym := x } { r' with sym := x' } := by
  cases h with
  | mk sig cast tokens used sym last label casts queue h1 h2 h3 h4 h5 h6 h7 h8 =>
    exact .mk { r with sym := x } sig cast tokens used x' last label casts queue h1 h2 h3 hx h5 h6 h7 h8
theorem RR.setFresh (h : RR N M r r') {x x' : Short → Option Sym} (hx : ∀ a, OptR (SymR N) (x a) (x' a)) {l l' : Option (Sym × SymInfo)} (hl : OptR (LastR N M) l l') :
    RR N M { r with sym := x, last := l, nextSym := r.nextSym + 1 } { r' with sym := x', last := l', nextSym := r'.nextSym + 1 } := by
  cases h with
  | mk sig cast tokens used sym last label casts queue h1 h2 h3 h4 h5 h6 h7 h8 =>
    exact .mk { r with sym := x, last := l, nextSym := r.nextSym + 1 } sig cast tokens used x' l' label casts queue h1 h2 h3 hx hl h6 h7 h8

theorem upd_R {α : Type} {q : α → α → Prop} {f f' : Short → α} (h : ∀ a, q (f a) (f' a)) (k : Short) {v v' : α} (hv : q v v') : ∀ a, q (upd f k v a) (upd f' k v' a) := by
  intro a
  unfold upd
  split
  · exact hv
  · exact h a

theorem RR.reject (h : RR N M r r') (w : Complaint) : RR N M (r.reject w) (r'.reject w) := (h.complain w).setHandler none

theorem Token.mark_iff {t t' : Str} (h : Token N t t') (m : Str) (hm : m ∈ marks) : t' = m ↔ t = m := by
  rcases h with ⟨e, _⟩ | ⟨h1, h2, _⟩
  · rw [e]
  · exact ⟨fun e => absurd (e ▸ hm) h2, fun e => absurd (e ▸ hm) h1⟩

theorem Token.dashes {t t' : Str} (h : Token N t t') : isDashes t' = isDashes t := by
  unfold isDashes
  rw [Bool.eq_iff_iff, beq_iff_eq, beq_iff_eq]
  exact h.mark_iff _ (by decide)

theorem Token.arrow {t t' : Str} (h : Token N t t') : isArrow t' = isArrow t := by
  unfold isArrow
  rw [Bool.eq_iff_iff, beq_iff_eq, beq_iff_eq]
  exact h.mark_iff _ (by decide)

theorem Token.value {t t' : Str} (h : Token N t t') (h1 : t ≠ str ".") (h2 : t ≠ str "!") (h3 : ¬ (isDashes t || isArrow t) = true) : WR N (parseValue t) (parseValue t') := by
  rcases h with ⟨_, hm⟩ | ⟨_, _, h⟩
  · unfold marks at hm
    rw [Bool.or_eq_true] at h3
    unfold isDashes isArrow at h3
    rw [beq_iff_eq, beq_iff_eq] at h3
    simp only [List.mem_cons, List.not_mem_nil, or_false] at hm
    rcases hm with e | e | e | e
    · exact absurd e h1
    · exact absurd e h2
    · exact absurd (.inl e) h3
    · exact absurd (.inr e) h3
  · exact h

theorem SigR.part {s s' : Sig} (h : SigR N s s') (p : Place) : List.Forall₂ (WR N) (s.part p) (s'.part p) := by
  cases p
  · exact h.wstIn
  · exact h.rstIn
  · exact h.wstOut
  · exact h.rstOut

theorem append_R {α : Type} {q : α → α → Prop} {l l' : List α} (h : List.Forall₂ q l l') {v v' : α} (hv : q v v') : List.Forall₂ q (l ++ [v]) (l' ++ [v']) := by
  induction h with
  | nil => exact .cons hv .nil
  | cons h _ ih => exact .cons h ih

theorem SigR.extend {s s' : Sig} (h : SigR N s s') (p : Place) {v v' : Value} (hv : WR N v v') : SigR N (s.extend p v) (s'.extend p v') := by
  cases p
  · exact ⟨append_R h.wstIn hv, h.rstIn, h.wstOut, h.rstOut, h.kind⟩
  · exact ⟨h.wstIn, append_R h.rstIn hv, h.wstOut, h.rstOut, h.kind⟩
  · exact ⟨h.wstIn, h.rstIn, append_R h.wstOut hv, h.rstOut, h.kind⟩
  · exact ⟨h.wstIn, h.rstIn, h.wstOut, append_R h.rstOut hv, h.kind⟩

/-- After the test whether the signature is sealed. -/
def unsealed (r : Reader) : Reader := if r.isSealed then r.reject .sealed else r

theorem RR.unsealed (h : RR N M r r') : RR N M (unsealed r) (unsealed r') := by
  unfold Names.unsealed
  rw [h.isSealed]
  split
  · exact h.reject _
  · exact h

theorem signatureToken_eq (t : Str) (r : Reader) : signatureToken t r =
    if t = str "." then
      match (unsealed r).place with
      | .wstIn => { unsealed r with place := .rstIn }
      | .wstOut => { unsealed r with place := .rstOut }
      | _ => (unsealed r).reject .unexpected
    else if t = str "!" then { unsealed r with isSealed := true }
    else if isDashes t || isArrow t then
      match (unsealed r).place with
      | .wstIn | .rstIn => { unsealed r with place := .wstOut, sig := { (unsealed r).sig with kind := if isDashes t then .subroutine else .vector } }
      | _ => (unsealed r).reject .unexpected
    else if ((unsealed r).sig.part (unsealed r).place).length < maxArgs then { unsealed r with sig := (unsealed r).sig.extend (unsealed r).place (parseValue t) }
    else (unsealed r).reject .tooMany := rfl

theorem RR.signatureToken (h : RR N M r r') {t t' : Str} (ht : Token N t t') : RR N M (signatureToken t r) (signatureToken t' r') := by
  rw [signatureToken_eq, signatureToken_eq]
  have h1 := h.unsealed
  generalize Names.unsealed r = d at h1 ⊢
  generalize Names.unsealed r' = d' at h1 ⊢
  have m1 := ht.mark_iff (str ".") (by decide)
  have m2 := ht.mark_iff (str "!") (by decide)
  by_cases k1 : t = str "."
  · rw [if_pos k1, if_pos (m1.2 k1), h1.placeEq]
    split
    · exact h1.setPlace _
    · exact h1.setPlace _
    · exact h1.reject _
  rw [if_neg k1, if_neg (fun e => k1 (m1.1 e))]
  by_cases k2 : t = str "!"
  · rw [if_pos k2, if_pos (m2.2 k2)]
    exact h1.setSealed _
  rw [if_neg k2, if_neg (fun e => k2 (m2.1 e)), ht.dashes, ht.arrow]
  by_cases k3 : (isDashes t || isArrow t) = true
  · rw [if_pos k3, if_pos k3, h1.placeEq]
    have hs : ∀ k : Kind, SigR N { d.sig with kind := k } { d'.sig with kind := k } := fun k => ⟨h1.sig.wstIn, h1.sig.rstIn, h1.sig.wstOut, h1.sig.rstOut, rfl⟩
    split
    · exact (h1.setPlace .wstOut).setSig (hs (if isDashes t then .subroutine else .vector))
    · exact (h1.setPlace .wstOut).setSig (hs (if isDashes t then .subroutine else .vector))
    · exact h1.reject _
  · have hx : SigR N (d.sig.extend d.place (parseValue t)) (d'.sig.extend d'.place (parseValue t')) := by
      rw [h1.placeEq]; exact h1.sig.extend _ (ht.value k1 k2 k3)
    have hn : (d'.sig.part d'.place).length = (d.sig.part d.place).length := by rw [h1.placeEq, (h1.sig.part d.place).length_eq]
    rw [if_neg k3, if_neg k3, hn]
    split
    · exact h1.setSig hx
    · exact h1.reject _

theorem castToken_eq (t : Str) (r : Reader) : castToken t r =
    if t = str "." then
      match (unsealed r).place with
      | .wstIn => { unsealed r with place := .rstIn }
      | _ => (unsealed r).reject .unexpected
    else if t = str "!" then { unsealed r with isSealed := true }
    else if isDashes t || isArrow t then (unsealed r).reject .unexpected
    else
      match (unsealed r).place with
      | .rstIn =>
        if (unsealed r).cast.rst.length < maxArgs then
          { unsealed r with cast := { (unsealed r).cast with rst := (unsealed r).cast.rst ++ [parseValue t] } } else (unsealed r).reject .tooMany
      | _ =>
        if (unsealed r).cast.wst.length < maxArgs then
          { unsealed r with cast := { (unsealed r).cast with wst := (unsealed r).cast.wst ++ [parseValue t] } } else (unsealed r).reject .tooMany := rfl

theorem RR.castToken (h : RR N M r r') {t t' : Str} (ht : Token N t t') : RR N M (castToken t r) (castToken t' r') := by
  rw [castToken_eq, castToken_eq]
  have h1 := h.unsealed
  generalize Names.unsealed r = d at h1 ⊢
  generalize Names.unsealed r' = d' at h1 ⊢
  have m1 := ht.mark_iff (str ".") (by decide)
  have m2 := ht.mark_iff (str "!") (by decide)
  by_cases k1 : t = str "."
  · rw [if_pos k1, if_pos (m1.2 k1), h1.placeEq]
    split
    · exact h1.setPlace _
    · exact h1.reject _
  rw [if_neg k1, if_neg (fun e => k1 (m1.1 e))]
  by_cases k2 : t = str "!"
  · rw [if_pos k2, if_pos (m2.2 k2)]
    exact h1.setSealed _
  rw [if_neg k2, if_neg (fun e => k2 (m2.1 e)), ht.dashes, ht.arrow]
  by_cases k3 : (isDashes t || isArrow t) = true
  · rw [if_pos k3, if_pos k3]
    exact h1.reject _
  · have hv := ht.value k1 k2 k3
    rw [if_neg k3, if_neg k3, h1.placeEq, ← h1.cast.rst.length_eq, ← h1.cast.wst.length_eq]
    split
    · split
      · exact h1.setCast ⟨h1.cast.wst, append_R h1.cast.rst hv⟩
      · exact h1.reject _
    · split
      · exact h1.setCast ⟨append_R h1.cast.wst hv, h1.cast.rst⟩
      · exact h1.reject _

theorem SigR.entry {s s' : Sig} (h : SigR N s s') (a : Short) (n : Nat) : ER N (routineEntry a s n) (routineEntry a s' n) := by
  have hr : SR N (if s.kind = .subroutine then rawPush Stack.empty { short := true, address := true, ret := true } else Stack.empty)
      (if s'.kind = .subroutine then rawPush Stack.empty { short := true, address := true, ret := true } else Stack.empty) := by
    rw [h.kind]
    split
    · exact rawPush_SR .empty (.same _ rfl)
    · exact .empty
  have toV : ∀ {vs vs' : List Value}, List.Forall₂ (WR N) vs vs' → List.Forall₂ (VR N) vs vs' := fun h => h.imp fun _ _ => WR.toVR
  exact .mk (routineEntry a s n) _ _ (foldl_rawPush_SR (toV h.wstIn) .empty) (foldl_rawPush_SR (toV h.rstIn) hr)

theorem RR.mark (h : RR N M r r') (a : Short) {s s' : Sig} (hs : SigR N s s') : RR N M (r.mark a s) (r'.mark a s') := by
  cases h with
  | mk sig cast tokens used sym last label casts queue h1 h2 h3 h4 h5 h6 h7 h8 =>
    exact .mk (r.mark a s) sig cast tokens used sym last label casts (routineEntry a s' r.nextTrace :: queue) h1 h2 h3 h4 h5 h6 h7 (.cons (hs.entry a _) h8)

theorem RR.signatureEnd (h : RR N M r r') : RR N M (signatureEnd r) (signatureEnd r') := by
  have ea := h.curAddr
  have hl := h.label r.curAddr
  have hb : r'.label r'.curAddr = r'.label r.curAddr := by rw [ea]
  have hc := h.complain .redundantSignature
  have h1 : RR N M { r with label := upd r.label r.curAddr (some (some r.sig)) } { r' with label := upd r'.label r'.curAddr (some (some r'.sig)) } := by
    have e : upd r'.label r'.curAddr (some (some r'.sig)) = upd r'.label r.curAddr (some (some r'.sig)) := by rw [ea]
    rw [e]
    exact h.setLabel1 (upd_R h.label r.curAddr (.yes (.yes h.sig)))
  have h2 := h1.mark r.curAddr h.sig
  unfold Chess.signatureEnd
  generalize r.label r.curAddr = x at hl ⊢
  rw [hb]
  generalize r'.label r.curAddr = x' at hl ⊢
  cases hl with
  | no => exact hc
  | yes hl =>
    cases hl with
    | yes hl => exact hc
    | no =>
      dsimp only
      by_cases hs : r.isSealed = true
      · rw [if_pos hs, if_pos (h.isSealed.trans hs)]
        exact h1
      · have hs' : ¬ r'.isSealed = true := by rw [h.isSealed]; exact hs
        rw [if_neg hs, if_neg hs', show Reader.mark r'.curAddr = Reader.mark r.curAddr by rw [ea]]
        exact h2

theorem RR.castEnd (h : RR N M r r') : RR N M (castEnd r) (castEnd r') := by
  have ea := h.curAddr
  have hl := h.casts r.curAddr
  have hb : r'.casts r'.curAddr = r'.casts r.curAddr := by rw [ea]
  have hc := h.complain .redundantCast
  have h1 : RR N M { r with casts := upd r.casts r.curAddr (some r.cast) } { r' with casts := upd r'.casts r'.curAddr (some r'.cast) } := by
    have e : upd r'.casts r'.curAddr (some r'.cast) = upd r'.casts r.curAddr (some r'.cast) := by rw [ea]
    rw [e]
    exact h.setCasts (upd_R h.casts _ (.yes h.cast))
  unfold Chess.castEnd
  generalize r.casts r.curAddr = x at hl ⊢
  rw [hb]
  generalize r'.casts r.curAddr = x' at hl ⊢
  cases hl with
  | no => exact h1
  | yes hl => exact hc

theorem RR.secondStage (h : RR N M r r') (x : Handler) {t t' : Str} (ht : Token N t t') : RR N M (secondStage x t r) (secondStage x t' r') := by
  unfold Chess.secondStage
  rw [h.handler]
  split
  · exact h
  · split
    · exact h.signatureToken ht
    · exact h.castToken ht

theorem RR.stages (h : RR N M r r') (x : Handler) {ts ts' : List Str} (ht : List.Forall₂ (Token N) ts ts') :
    RR N M (ts.foldl (fun r t => Chess.secondStage x t r) r) (ts'.foldl (fun r t => Chess.secondStage x t r) r') := by
  induction ht generalizing r r' with
  | nil => exact h
  | cons ht _ ih => exact ih (h.secondStage x ht)

theorem RR.buffer (h : RR N M r r') (b : Bool) (x : Handler) {t t' : Str} (ht : Token N t t') (hu : b = false → (r.used + t.length + 1 > tmpSize ↔ r'.used + t'.length + 1 > tmpSize)) :
    RR N M (buffer b x t r) (buffer b x t' r') := by
  unfold Chess.buffer
  cases b with
  | true =>
    simp only [if_true]
    have h1 := ((h.setPlace .wstIn).setSealed false).setHandler (some x)
    exact (h1.stages x h1.tokens).secondStage x ht
  | false =>
    simp only [Bool.false_eq_true, if_false]
    rw [← h.tokens.length_eq]
    split
    · have hu := hu rfl
      by_cases hk : r.used + t.length + 1 > tmpSize
      · rw [if_pos hk, if_pos (hu.1 hk)]
        exact h.setHandler none
      · rw [if_neg hk, if_neg (fun e => hk (hu.2 e))]
        exact h.setTokens (append_R h.tokens ht) _ _
    · exact h.setHandler none

/-- While a word is only kept for later. -/
def Waiting (r : Reader) : Prop := r.handler = some .signature ∨ r.handler = some .cast

theorem RR.annotate (h : RR N M r r') {t t' : Str} (ht : Token N t t') (hu : Waiting r → (r.used + t.length + 1 > tmpSize ↔ r'.used + t'.length + 1 > tmpSize)) :
    RR N M (annotate t r) (annotate t' r') := by
  unfold Chess.annotate
  rw [h.handler]
  cases hh : r.handler with
  | none => exact h
  | some k =>
    cases k with
    | signature =>
      dsimp only
      rw [ht.dashes, ht.arrow]
      cases hb : (isDashes t || isArrow t) with
      | true => exact (h.setSig SigR.none).buffer true _ ht nofun
      | false => exact h.buffer false _ ht fun _ => hu (.inl hh)
    | signature2 => exact h.signatureToken ht
    | cast =>
      have hb : (t' == str "!") = (t == str "!") := by
        rw [Bool.eq_iff_iff, beq_iff_eq, beq_iff_eq]
        exact ht.mark_iff _ (by decide)
      dsimp only
      rw [hb]
      cases hb : (t == str "!") with
      | true => exact (h.setCast (x := {}) (x' := {}) ⟨.nil, .nil⟩).buffer true _ ht nofun
      | false => exact h.buffer false _ ht fun _ => hu (.inr hh)
    | cast2 => exact h.castToken ht

theorem unsealed_waits {r : Reader} (h : ¬ Waiting r) : ¬ Waiting (unsealed r) := by
  unfold Names.unsealed
  split
  · exact fun e => by rcases e with e | e <;> cases e
  · exact h

theorem not_waiting_none {r : Reader} (h : r.handler = none) : ¬ Waiting r := fun e => by
  rcases e with e | e <;> rw [h] at e <;> cases e

theorem signatureToken_waits {r : Reader} (t : Str) (h : ¬ Waiting r) : ¬ Waiting (signatureToken t r) := by
  rw [signatureToken_eq]
  have h1 := unsealed_waits h
  generalize Names.unsealed r = d at h1 ⊢
  split
  · split
    · exact h1
    · exact h1
    · exact not_waiting_none rfl
  split
  · exact h1
  split
  · split
    · exact h1
    · exact h1
    · exact not_waiting_none rfl
  split
  · exact h1
  · exact not_waiting_none rfl

theorem castToken_waits {r : Reader} (t : Str) (h : ¬ Waiting r) : ¬ Waiting (castToken t r) := by
  rw [castToken_eq]
  have h1 := unsealed_waits h
  generalize Names.unsealed r = d at h1 ⊢
  split
  · split
    · exact h1
    · exact not_waiting_none rfl
  split
  · exact h1
  split
  · exact not_waiting_none rfl
  split
  · split
    · exact h1
    · exact not_waiting_none rfl
  · split
    · exact h1
    · exact not_waiting_none rfl

theorem secondStage_waits {r : Reader} (x : Handler) (t : Str) (h : ¬ Waiting r) : ¬ Waiting (secondStage x t r) := by
  unfold Chess.secondStage
  split
  · exact h
  · split
    · exact signatureToken_waits t h
    · exact castToken_waits t h

theorem stages_wait (x : Handler) (ts : List Str) {r : Reader} (h : ¬ Waiting r) : ¬ Waiting (ts.foldl (fun r t => secondStage x t r) r) := by
  induction ts generalizing r with
  | nil => exact h
  | cons t ts ih => exact ih (secondStage_waits x t h)

theorem buffer_waits (b : Bool) (x : Handler) (t : Str) (r : Reader) (hx : x = .signature2 ∨ x = .cast2) (h : Waiting (buffer b x t r)) :
    Waiting r ∧ b = false ∧ (buffer b x t r).used = r.used + t.length + 1 := by
  unfold Chess.buffer at h ⊢
  cases b with
  | true =>
    simp only [if_true] at h
    refine absurd h (secondStage_waits x t (stages_wait x _ ?_))
    rcases hx with e | e <;> subst e <;> exact fun e => by rcases e with e | e <;> cases e
  | false =>
    simp only [Bool.false_eq_true, if_false] at h ⊢
    split at h
    · rename_i h1
      rw [if_pos h1]
      split at h
      · exact absurd h (not_waiting_none rfl)
      · rename_i h2
        rw [if_neg h2]
        exact ⟨h, trivial, rfl⟩
    · exact absurd h (not_waiting_none rfl)

theorem annotate_waits (t : Str) (r : Reader) (h : Waiting (annotate t r)) : Waiting r ∧ (annotate t r).used = r.used + t.length + 1 := by
  unfold Chess.annotate at h ⊢
  cases hh : r.handler with
  | none => rw [hh] at h; exact absurd h (not_waiting_none hh)
  | some k =>
    rw [hh] at h
    cases k with
    | signature =>
      refine ⟨.inl hh, ?_⟩
      dsimp only at h ⊢
      have h1 := buffer_waits _ _ _ _ (.inl rfl) h
      rw [h1.2.2, h1.2.1]
      rfl
    | signature2 => exact absurd h (signatureToken_waits t (fun e => by rcases e with e | e <;> rw [hh] at e <;> cases e))
    | cast =>
      refine ⟨.inr hh, ?_⟩
      dsimp only at h ⊢
      have h1 := buffer_waits _ _ _ _ (.inr rfl) h
      rw [h1.2.2, h1.2.1]
      rfl
    | cast2 => exact absurd h (castToken_waits t (fun e => by rcases e with e | e <;> rw [hh] at e <;> cases e))

theorem RR.waiting (h : RR N M r r') : Waiting r' ↔ Waiting r := by unfold Waiting; rw [h.handler]

theorem RR.annotationEnd (h : RR N M r r') : RR N M (annotationEnd r) (annotationEnd r') ∧ (Chess.annotationEnd r).handler = none := by
  unfold Chess.annotationEnd
  rw [h.handler]
  cases hh : r.handler with
  | none => exact ⟨h, hh⟩
  | some k =>
    cases k with
    | signature => exact ⟨h.setHandler none, rfl⟩
    | signature2 => exact ⟨h.signatureEnd.setHandler none, rfl⟩
    | cast => exact ⟨h.setHandler none, rfl⟩
    | cast2 => exact ⟨h.castEnd.setHandler none, rfl⟩

theorem handleSymbol_comment (a : Short) {i : SymInfo} (hi : i.type = .comment) (r : Reader) : handleSymbol a i r = handleComment i r := by
  unfold handleSymbol; rw [hi]

theorem handleComment_word {i : SymInfo} (h1 : i.id = 1) (hn : i.name.getD [] ≠ str ")") (r : Reader) : handleComment i r = Chess.annotate (i.name.getD []) r := by
  unfold handleComment
  dsimp only
  rw [if_neg (show ¬ i.id = 0 by rw [h1]; decide), if_neg (show ¬ (i.id = 1 ∧ i.name.getD [] = str ")") from fun e => hn e.2), if_pos h1]

theorem handleComment_deep {i : SymInfo} (h0 : i.id ≠ 0) (h1 : i.id ≠ 1) (r : Reader) : handleComment i r = { r with handler := none } := by
  unfold handleComment
  dsimp only
  rw [if_neg h0, if_neg (show ¬ (i.id = 1 ∧ i.name.getD [] = str ")") from fun e => h1 e.1), if_neg h1]

/-- A comment is opened. -/
def opened (r : Reader) : Reader :=
  if r.curType = .label ∧ ¬ r.curGenerated then { r with handler := some .signature }
  else if r.curType = .opcode ∨ r.curType = .labelRef ∨ r.curType = .number ∨ r.curType = .text then { r with handler := some .cast }
  else r

theorem handleComment_open {i : SymInfo} (h0 : i.id = 0) (r : Reader) :
    handleComment i r = if (i.name.getD []).length = 1 ∧ r.hasCur = true then opened { r with used := 0, tokens := [] } else r := by
  unfold handleComment
  dsimp only
  rw [if_pos h0]
  rfl

theorem opened_used (r : Reader) : (opened r).used = r.used := by
  unfold opened
  split
  · rfl
  · split <;> rfl

theorem RR.opened (h : RR N M r r') : RR N M (opened r) (opened r') := by
  have h1 := h.setHandler (some .signature)
  have h2 := h.setHandler (some .cast)
  unfold Names.opened
  by_cases k1 : r.curType = .label ∧ ¬ r.curGenerated = true
  · have k1' : r'.curType = .label ∧ ¬ r'.curGenerated = true := by rw [h.curType, h.curGenerated]; exact k1
    rw [if_pos k1, if_pos k1']
    exact h1
  · have k1' : ¬ (r'.curType = .label ∧ ¬ r'.curGenerated = true) := by rw [h.curType, h.curGenerated]; exact k1
    rw [if_neg k1, if_neg k1']
    by_cases k2 : r.curType = .opcode ∨ r.curType = .labelRef ∨ r.curType = .number ∨ r.curType = .text
    · have k2' : r'.curType = .opcode ∨ r'.curType = .labelRef ∨ r'.curType = .number ∨ r'.curType = .text := by rw [h.curType]; exact k2
      rw [if_pos k2, if_pos k2']
      exact h2
    · have k2' : ¬ (r'.curType = .opcode ∨ r'.curType = .labelRef ∨ r'.curType = .number ∨ r'.curType = .text) := by rw [h.curType]; exact k2
      rw [if_neg k2, if_neg k2']
      exact h

/-- The symbols of a program. -/
def readSymbols (l : List (Short × SymInfo)) (r : Reader) : Reader := l.foldl (fun r e => handleSymbol e.1 e.2 r) r

theorem RR.words {ws ws' : List (Short × SymInfo)} (hw : List.Forall₂ (WordR N) (ws.map Prod.snd) (ws'.map Prod.snd)) {r r' : Reader} (h : RR N M r r') (u u' : Nat)
    (hu : Waiting r → r.used = u ∧ r'.used = u')
    (hk : ∀ k, u + total ((ws.map Prod.snd).take k) ≤ tmpSize ↔ u' + total ((ws'.map Prod.snd).take k) ≤ tmpSize) : RR N M (readSymbols ws r) (readSymbols ws' r') := by
  induction ws generalizing ws' r r' u u' with
  | nil =>
    cases ws' with
    | nil => exact h
    | cons _ _ => cases hw
  | cons w ws ih =>
    cases ws' with
    | nil => cases hw
    | cons w' ws' =>
      obtain ⟨a, i⟩ := w
      obtain ⟨a', i'⟩ := w'
      rw [List.map_cons, List.map_cons] at hw
      cases hw with
      | cons hi hw =>
        replace hi : WordR N i i' := hi
        have hk1 := hk 1
        have hk2 : ∀ k, u + ((i.name.getD []).length + 1) + total ((ws.map Prod.snd).take k) ≤ tmpSize ↔ u' + ((i'.name.getD []).length + 1) + total ((ws'.map Prod.snd).take k) ≤ tmpSize := by
          intro k
          have := hk (k + 1)
          simp only [List.map_cons, List.take_succ_cons, total, List.sum_cons] at this
          unfold total
          omega
        simp only [List.map_cons, List.take_succ_cons, List.take_zero, total, List.map_nil, List.sum_cons, List.sum_nil] at hk1
        show RR N M (readSymbols ws (handleSymbol a i r)) (readSymbols ws' (handleSymbol a' i' r'))
        rw [handleSymbol_comment _ hi.type.1, handleSymbol_comment _ hi.type.2]
        by_cases h1 : i.id = 1
        · have hg := hi.goesOn h1
          rw [handleComment_word h1 hg.1, handleComment_word (hi.depth.trans h1) hg.2]
          have h2 := h.annotate (hi.word h1) (fun hq => by
            obtain ⟨e1, e2⟩ := hu hq
            rw [e1, e2]; omega)
          refine ih hw h2 _ _ (fun hq => ?_) hk2
          have h3 := annotate_waits _ _ hq
          have h4 := annotate_waits _ _ (h2.waiting.2 hq)
          obtain ⟨e1, e2⟩ := hu h3.1
          rw [h3.2, h4.2, e1, e2]
          exact ⟨by omega, by omega⟩
        · rw [handleComment_deep hi.inside h1, handleComment_deep (hi.depth ▸ hi.inside) (hi.depth ▸ h1)]
          exact ih hw (h.setHandler none) _ _ (fun hq => absurd hq (not_waiting_none rfl)) hk2

theorem RR.opening (h : RR N M r r') (hn : r.handler = none) {o o' : SymInfo} (h0 : o.id = 0) (h0' : o'.id = 0) (hl : (o.name.getD []).length = 1 ↔ (o'.name.getD []).length = 1) :
    RR N M (handleComment o r) (handleComment o' r') ∧ (Waiting (handleComment o r) → (handleComment o r).used = 0 ∧ (handleComment o' r').used = 0) := by
  rw [handleComment_open h0, handleComment_open h0']
  by_cases k : (o.name.getD []).length = 1 ∧ r.hasCur = true
  · have k' : (o'.name.getD []).length = 1 ∧ r'.hasCur = true := ⟨hl.1 k.1, h.hasCur.trans k.2⟩
    rw [if_pos k, if_pos k', opened_used, opened_used]
    exact ⟨(h.setTokens (x := []) (x' := []) .nil 0 0).opened, fun _ => ⟨rfl, rfl⟩⟩
  · have k' : ¬ ((o'.name.getD []).length = 1 ∧ r'.hasCur = true) := fun e => k ⟨hl.2 e.1, h.hasCur.symm.trans e.2⟩
    rw [if_neg k, if_neg k']
    exact ⟨h, fun hq => absurd hq (not_waiting_none hn)⟩

theorem RR.ensure (h : RR N M r r') (a : Short) : RR N M (r.ensure a) (r'.ensure a) := by
  unfold Reader.ensure
  have hl := h.label a
  generalize hx : r.label a = x at hl ⊢
  generalize hx' : r'.label a = x' at hl ⊢
  cases hl with
  | no =>
    have h1 := h.setLabel (upd_R h.label a (.yes .no)) (a :: r.keys)
    dsimp only
    rw [h.keys]
    exact h1
  | yes hl => exact h

theorem ensure_handler (r : Reader) (a : Short) : (r.ensure a).handler = r.handler := by
  unfold Reader.ensure
  split <;> rfl

theorem continues_eq {i i' j j' : SymInfo} (h1 : i'.type = i.type) (h2 : j'.type = j.type) (p1 : M.place i.region i'.region) (p2 : M.place j.region j'.region) : continues i' j' = continues i j := by
  unfold continues
  rw [h1, h2, decide_eq_decide]
  have := M.apart _ _ _ _ p1 p2
  unfold SamePlace at this
  exact and_congr_right fun _ => this.symm

theorem RR.handleCode (h : RR N M r r') (hn : r.handler = none) (a : Short) {i i' : SymInfo} (hi : SymbolR N M i i') :
    RR N M (handleCode a i r) (handleCode a i' r') ∧ (Chess.handleCode a i r).handler = none := by
  unfold Chess.handleCode
  dsimp only
  rw [hi.type, hi.generated]
  have h1 := h.setLow a
  have h2 : RR N M
      (if i.type = .opcode then { { r with lowCode := r.lowCode || decide (a.toNat < 256) } with curType := i.type, curGenerated := i.generated, curAddr := a, handler := none, hasCur := true }
        else { r with lowCode := r.lowCode || decide (a.toNat < 256) })
      (if i.type = .opcode then { { r' with lowCode := r'.lowCode || decide (a.toNat < 256) } with curType := i.type, curGenerated := i.generated, curAddr := a, handler := none, hasCur := true }
        else { r' with lowCode := r'.lowCode || decide (a.toNat < 256) }) := by
    split
    · exact h1.setCur _ _ _
    · exact h1
  have hn2 : (if i.type = .opcode then { { r with lowCode := r.lowCode || decide (a.toNat < 256) } with curType := i.type, curGenerated := i.generated, curAddr := a, handler := none, hasCur := true }
        else { r with lowCode := r.lowCode || decide (a.toNat < 256) } : Reader).handler = none := by
    split
    · rfl
    · exact hn
  dsimp only at h2 hn2
  generalize (if i.type = .opcode then _ else _ : Reader) = d at h2 hn2 ⊢
  generalize (if i.type = .opcode then _ else _ : Reader) = d' at h2 ⊢
  have hs : SymR N ⟨d.nextSym, i.type, i.name.getD (str "@")⟩ ⟨d'.nextSym, i.type, i'.name.getD (str "@")⟩ := by
    rw [h2.nextSym]
    exact .mk ⟨d.nextSym, i.type, i.name.getD (str "@")⟩ _ hi.ref
  have h3 := h2.setFresh (upd_R h2.sym a (.yes hs)) (.yes (.mk hs hi.type hi.place))
  have hl := h2.last
  have h4 := fun {s s' : Sym} (hq : SymR N s s') => h2.setSym (upd_R h2.sym a (.yes hq))
  generalize hx : d.last = x at hl ⊢
  generalize hx' : d'.last = x' at hl ⊢
  cases hl with
  | no => exact ⟨h3, hn2⟩
  | yes hl =>
    cases hl with
    | mk hq ht hp =>
      dsimp only
      rw [continues_eq hi.type ht hi.place hp]
      split
      · have h5 := h4 hq
        rw [hx, hx'] at h5
        exact ⟨h5, hn2⟩
      · exact ⟨h3, hn2⟩

theorem RR.symbol (h : RR N M r r') (hn : r.handler = none) (a : Short) {i i' : SymInfo} (hi : SymbolR N M i i') :
    RR N M (handleSymbol a i r) (handleSymbol a i' r') ∧ (handleSymbol a i r).handler = none := by
  have hc := h.handleCode hn a hi
  have hl := (h.setCur i.type i.generated a).ensure a
  unfold handleSymbol
  rw [hi.type, hi.generated]
  cases ht : i.type with
  | comment => exact absurd ht hi.outside
  | label =>
    dsimp only
    split
    · exact ⟨h, hn⟩
    · rw [ht] at hl
      exact ⟨hl, by rw [ensure_handler]⟩
  | «macro» => exact ⟨h.setNoCur, hn⟩
  | opcode => exact hc
  | labelRef => exact hc
  | number => exact hc
  | text => exact hc
  | mark => exact ⟨h, hn⟩
  | macroRef => exact ⟨h, hn⟩
  | «include» => exact ⟨h, hn⟩

theorem RR.read {l l' : List (Short × SymInfo)} (hl : Alike N M l l') {r r' : Reader} (h : RR N M r r') (hn : r.handler = none) :
    RR N M (readSymbols l r) (readSymbols l' r') := by
  induction hl generalizing r r' with
  | done => exact h
  | symbol hi _ ih =>
    rename_i a _ _ _ _ _
    have h1 := h.symbol hn a hi
    exact ih h1.1 h1.2
  | comment ho ho' h0 h0' hlen hw hk hc hc' hc1 hc1' hcn hcn' _ ih =>
    rename_i a a' o o' c c' ws ws' l l' _
    have h1 := h.opening hn h0 h0' hlen
    have h2 := h1.1.words hw 0 0 h1.2 (fun k => by rw [Nat.zero_add, Nat.zero_add]; exact hk k)
    have h3 := h2.annotationEnd
    have e : ∀ (a : Short) (o c : SymInfo) (ws l : List (Short × SymInfo)) (r : Reader), o.type = .comment → c.type = .comment → c.id = 1 → c.name.getD [] = str ")" →
        readSymbols ((a, o) :: ws ++ (a, c) :: l) r = readSymbols l (Chess.annotationEnd (readSymbols ws (handleComment o r))) := by
      intro a o c ws l r ho hc h1 hn
      unfold readSymbols
      rw [List.cons_append, List.foldl_cons, List.foldl_append, List.foldl_cons, handleSymbol_comment _ ho]
      congr 1
      rw [handleSymbol_comment _ hc]
      unfold handleComment
      dsimp only
      rw [if_neg (by rw [h1]; decide), if_pos ⟨h1, hn⟩]
    rw [e a o c ws l r ho hc hc1 hcn, e a' o' c' ws' l' r' ho' hc' hc1' hcn']
    exact ih h3.1 h3.2

end Buxn.Chess.Names
