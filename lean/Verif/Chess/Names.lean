import Verif.Chess.Parse
import Mathlib.Data.List.Forall2
/-!
# Names and positions in the type checker (C90): what is executed

Two programs whose annotations and references mention other names, and two runs of the checker on them.
-/
namespace Buxn.Chess.Names
open Buxn.Asm (Str SymType SymInfo ch str)
open Buxn.VM (Instr Op dispatch)

/-! ## Specification -/

/-- Which names of types, and which names of labels, stand for each other. What counts of them is which names of types are the beginning of
which other names. -/
structure Naming where
  type : Str → Str → Prop
  label : Str → Str → Prop
  order : ∀ w w' x x', type w w' → type x x' ∨ label x x' → (w <+: x ↔ w' <+: x')

variable {N : Naming}

/-- Two values that differ in the name of their type only. -/
inductive VR (N : Naming) : Value → Value → Prop
  | mk (v : Value) (t : Str) (h : v.nominal = true → N.type v.type t ∨ N.label v.type t) : VR N v { v with type := t }

/-- The same for a value in an annotation. -/
inductive WR (N : Naming) : Value → Value → Prop
  | mk (v : Value) (t : Str) (h : v.nominal = true → N.type v.type t) : WR N v { v with type := t }

/-- The same for signatures and casts. -/
structure SigR (N : Naming) (s s' : Sig) : Prop where
  wstIn : List.Forall₂ (WR N) s.wstIn s'.wstIn
  rstIn : List.Forall₂ (WR N) s.rstIn s'.rstIn
  wstOut : List.Forall₂ (WR N) s.wstOut s'.wstOut
  rstOut : List.Forall₂ (WR N) s.rstOut s'.rstOut
  kind : s'.kind = s.kind

structure CastR (N : Naming) (s s' : Cast) : Prop where
  wst : List.Forall₂ (WR N) s.wst s'.wst
  rst : List.Forall₂ (WR N) s.rst s'.rst

/-- The same for symbols: only references have names that count. -/
inductive SymR (N : Naming) : Sym → Sym → Prop
  | mk (s : Sym) (name : Str) (h : s.type = .labelRef → N.label s.name name) : SymR N s { s with name := name }

/-- Both are nothing, or both are something and related. -/
inductive OptR {α : Type} (r : α → α → Prop) : Option α → Option α → Prop
  | no : OptR r none none
  | yes {a a' : α} (h : r a a') : OptR r (some a) (some a')

/-- Two programs with other names. -/
structure ProgR (N : Naming) (P P' : Program) : Prop where
  rom : P'.rom = P.rom
  keys : P'.keys = P.keys
  sym : ∀ a, OptR (SymR N) (P.sym a) (P'.sym a)
  label : ∀ a, OptR (OptR (SigR N)) (P.label a) (P'.label a)
  cast : ∀ a, OptR (CastR N) (P.cast a) (P'.cast a)

/-! ## States -/

inductive SR (N : Naming) : Stack → Stack → Prop
  | mk (s : Stack) (f : Byte → Value) (h : ∀ i, VR N (s.content i) (f i)) : SR N s { s with content := f }

inductive NR (N : Naming) : Nodes → Nodes → Prop
  | mk (m : Nodes) (f : Nat → Value) (h : ∀ i, VR N (m.heap i) (f i)) : NR N m { m with heap := f }

inductive ER (N : Naming) : Entry → Entry → Prop
  | mk (e : Entry) (w r : Stack) (hw : SR N e.wst w) (hr : SR N e.rst r) : ER N e { e with wst := w, rst := r }

inductive Rel (N : Naming) : Run → Run → Prop
  | mk (c : Run) (q : List Entry) (m : Nodes) (w r sw sr : Stack) (hq : List.Forall₂ (ER N) c.queue q) (hm : NR N c.nodes m) (hw : SR N c.wst w) (hr : SR N c.rst r)
      (hsw : SR N c.shadowWst sw) (hsr : SR N c.shadowRst sr) :
      Rel N c { c with queue := q, nodes := m, wst := w, rst := r, shadowWst := sw, shadowRst := sr }

theorem WR.toVR {v v' : Value} (h : WR N v v') : VR N v v' := by
  cases h with
  | mk t h => exact .mk v t fun e => .inl (h e)

theorem VR.size {v v' : Value} (h : VR N v v') : v'.size = v.size := by cases h; rfl
theorem VR.same (v : Value) (h : v.nominal = false) : VR N v v := .mk v v.type fun e => by rw [h] at e; cases e

theorem SR.content {s s' : Stack} (h : SR N s s') (i : Byte) : VR N (s.content i) (s'.content i) := by
  cases h with
  | mk f h => exact h i
theorem SR.len {s s' : Stack} (h : SR N s s') : s'.len = s.len := by cases h; rfl
theorem SR.size {s s' : Stack} (h : SR N s s') : s'.size = s.size := by cases h; rfl
theorem SR.of {s s' : Stack} (hl : s'.len = s.len) (hs : s'.size = s.size) (hc : ∀ i, VR N (s.content i) (s'.content i)) : SR N s s' := by
  obtain ⟨l, z, f⟩ := s
  obtain ⟨l', z', f'⟩ := s'
  dsimp only at hl hs hc
  subst hl hs
  exact .mk _ f' hc
theorem SR.top {s s' : Stack} (h : SR N s s') : VR N (top s) (top s') := by
  unfold Chess.top
  rw [h.len]; exact h.content _
theorem SR.empty : SR N Stack.empty Stack.empty := .of rfl rfl fun _ => .same _ rfl

theorem upd_VR {ι : Type} [DecidableEq ι] {f f' : ι → Value} (h : ∀ i, VR N (f i) (f' i)) {v v' : Value} (hv : VR N v v') (k : ι) :
    ∀ i, VR N (upd f k v i) (upd f' k v' i) := by
  intro i
  unfold upd
  split
  · exact hv
  · exact h i

variable {c c' : Run}

/-! ## Reports -/

theorem Rel.terminate (h : Rel N c c') : Rel N (terminate c) (terminate c') := by
  cases h with
  | mk q m w r sw sr hq hm hw hr hsw hsr => exact .mk (Chess.terminate c) q m w r sw sr hq hm hw hr hsw hsr

theorem Rel.error (h : Rel N c c') (p : Problem) : Rel N (error p c) (error p c') := by
  cases h with
  | mk q m w r sw sr hq hm hw hr hsw hsr => exact .mk (Chess.error p c) q m w r sw sr hq hm hw hr hsw hsr

theorem Rel.warning (h : Rel N c c') (p : Doubt) : Rel N (warning p c) (warning p c') := by
  cases h with
  | mk q m w r sw sr hq hm hw hr hsw hsr => exact .mk (Chess.warning p c) q m w r sw sr hq hm hw hr hsw hsr

theorem Rel.oob (h : Rel N c c') : Rel N { c with oob := true } { c' with oob := true } := by
  cases h with
  | mk q m w r sw sr hq hm hw hr hsw hsr => exact .mk { c with oob := true } q m w r sw sr hq hm hw hr hsw hsr

theorem Rel.wrapped (h : Rel N c c') (b : Bool) : Rel N { c with wrapped := b } { c' with wrapped := b } := by
  cases h with
  | mk q m w r sw sr hq hm hw hr hsw hsr => exact .mk { c with wrapped := b } q m w r sw sr hq hm hw hr hsw hsr

theorem Rel.mulOverflow (h : Rel N c c') (b : Bool) : Rel N { c with mulOverflow := b } { c' with mulOverflow := b } := by
  cases h with
  | mk q m w r sw sr hq hm hw hr hsw hsr => exact .mk { c with mulOverflow := b } q m w r sw sr hq hm hw hr hsw hsr

theorem Rel.setPc (h : Rel N c c') (b : Short) : Rel N { c with pc := b } { c' with pc := b } := by
  cases h with
  | mk q m w r sw sr hq hm hw hr hsw hsr => exact .mk { c with pc := b } q m w r sw sr hq hm hw hr hsw hsr

theorem Rel.setAgain (h : Rel N c c') (b : Bool) : Rel N { c with again := b } { c' with again := b } := by
  cases h with
  | mk q m w r sw sr hq hm hw hr hsw hsr => exact .mk { c with again := b } q m w r sw sr hq hm hw hr hsw hsr

theorem Rel.setArcs (h : Rel N c c') (b : List (Short × Short)) : Rel N { c with arcs := b } { c' with arcs := b } := by
  cases h with
  | mk q m w r sw sr hq hm hw hr hsw hsr => exact .mk { c with arcs := b } q m w r sw sr hq hm hw hr hsw hsr

theorem Rel.setInner (h : Rel N c c') (b : Bool) : Rel N { c with inner := b } { c' with inner := b } := by
  cases h with
  | mk q m w r sw sr hq hm hw hr hsw hsr => exact .mk { c with inner := b } q m w r sw sr hq hm hw hr hsw hsr

theorem Rel.setRunning (h : Rel N c c') (b : Bool) : Rel N { c with running := b } { c' with running := b } := by
  cases h with
  | mk q m w r sw sr hq hm hw hr hsw hsr => exact .mk { c with running := b } q m w r sw sr hq hm hw hr hsw hsr

theorem Rel.setNodes (h : Rel N c c') {m m' : Nodes} (hm' : NR N m m') : Rel N { c with nodes := m } { c' with nodes := m' } := by
  cases h with
  | mk q m0 w r sw sr hq hm hw hr hsw hsr => exact .mk { c with nodes := m } q m' w r sw sr hq hm' hw hr hsw hsr

theorem Rel.setTerminatedAt (h : Rel N c c') (b : Bool) : Rel N (setTerminatedAt b c) (setTerminatedAt b c') := by
  cases h with
  | mk q m w r sw sr hq hm hw hr hsw hsr => exact .mk (Chess.setTerminatedAt b c) q m w r sw sr hq hm hw hr hsw hsr

theorem Rel.tellDeo (h : Rel N c c') (a b : Byte) : Rel N (tellDeo a b c) (tellDeo a b c') := by
  cases h with
  | mk q m w r sw sr hq hm hw hr hsw hsr => exact .mk (Chess.tellDeo a b c) q m w r sw sr hq hm hw hr hsw hsr

theorem Rel.terminated (h : Rel N c c') : c'.terminated = c.terminated := by cases h; rfl
theorem Rel.opcode (h : Rel N c c') : c'.opcode = c.opcode := by cases h; rfl
theorem Rel.pc (h : Rel N c c') : c'.pc = c.pc := by cases h; rfl
theorem Rel.key (h : Rel N c c') : c'.key = c.key := by cases h; rfl
theorem Rel.keep (h : Rel N c c') : c'.keep = c.keep := by cases h; rfl
theorem Rel.arcs (h : Rel N c c') : c'.arcs = c.arcs := by cases h; rfl
theorem Rel.isWrapped (h : Rel N c c') : c'.wrapped = c.wrapped := by cases h; rfl
theorem Rel.inner (h : Rel N c c') : c'.inner = c.inner := by cases h; rfl
theorem Rel.running (h : Rel N c c') : c'.running = c.running := by cases h; rfl
theorem Rel.nodes (h : Rel N c c') : NR N c.nodes c'.nodes := by cases h; assumption
theorem Rel.queue (h : Rel N c c') : List.Forall₂ (ER N) c.queue c'.queue := by cases h; assumption
theorem Rel.wst (h : Rel N c c') : SR N c.wst c'.wst := by cases h; assumption
theorem Rel.rst (h : Rel N c c') : SR N c.rst c'.rst := by cases h; assumption
theorem Rel.shadowWst (h : Rel N c c') : SR N c.shadowWst c'.shadowWst := by cases h; assumption
theorem Rel.shadowRst (h : Rel N c c') : SR N c.shadowRst c'.shadowRst := by cases h; assumption
theorem Rel.flag2 (h : Rel N c c') : flag2 c' = flag2 c := by unfold Chess.flag2; rw [h.opcode]
theorem Rel.flagR (h : Rel N c c') : flagR c' = flagR c := by unfold Chess.flagR; rw [h.opcode]
theorem Rel.flagK (h : Rel N c c') : flagK c' = flagK c := by unfold Chess.flagK; rw [h.opcode]

/-! ## Stacks -/

theorem rawPush_SR {s s' : Stack} (h : SR N s s') {v v' : Value} (hv : VR N v v') : SR N (rawPush s v) (rawPush s' v') := by
  refine .of ?_ ?_ ?_
  · show s'.len + 1 = s.len + 1
    rw [h.len]
  · show s'.size + _ = s.size + _
    rw [h.size, hv.size]
  · unfold rawPush
    dsimp only
    rw [h.len]
    exact upd_VR h.content hv _

theorem Rel.touchTop (h : Rel N c c') {s s' : Stack} (hs : SR N s s') : Rel N (touchTop s c) (touchTop s' c') := by
  unfold Chess.touchTop
  rw [hs.len]
  split
  · exact h.oob
  · exact h

theorem NR.take {m m' : Nodes} (h : NR N m m') {v v' : Value} (hv : VR N v v') : (m'.take v').1 = (m.take v).1 ∧ NR N (m.take v).2 (m'.take v').2 := by
  cases h with
  | mk f h =>
    obtain ⟨heap, pool, fresh, taken⟩ := m
    cases pool with
    | nil => exact ⟨rfl, .mk ⟨upd heap fresh v, [], fresh + 1, fresh :: taken⟩ _ (upd_VR h hv _)⟩
    | cons n pool => exact ⟨rfl, .mk ⟨upd heap n v, pool, fresh, n :: taken⟩ _ (upd_VR h hv _)⟩

theorem lowHalf_VR {v v' : Value} (h : VR N v v') (n : Nat) : VR N (lowHalf n v) (lowHalf n v') := by
  cases h; exact .same _ rfl
theorem highHalf_VR {v v' : Value} (h : VR N v v') (n : Nat) : VR N (highHalf n v) (highHalf n v') := by
  cases h; exact .same _ rfl

/-- The results of popping. -/
structure PopR (N : Naming) (x x' : Value × Stack × Run) : Prop where
  value : VR N x.1 x'.1
  stack : SR N x.2.1 x'.2.1
  run : Rel N x.2.2 x'.2.2

theorem popByte_R (h : Rel N c c') {s s' : Stack} (hs : SR N s s') : PopR N (popByte s c) (popByte s' c') := by
  unfold popByte
  dsimp only
  rw [hs.size, hs.top.size]
  split
  · exact ⟨.same _ rfl, hs, h.error _⟩
  · split
    · exact ⟨hs.top, .of (by show s'.len - 1 = s.len - 1; rw [hs.len]) rfl hs.content, h.touchTop hs⟩
    · have ht := (h.touchTop hs).nodes.take hs.top
      have hn := ht.1
      refine ⟨?_, .of hs.len rfl ?_, ?_⟩
      · show VR N (lowHalf _ _) (lowHalf _ _)
        rw [hn]
        exact lowHalf_VR hs.top _
      · show ∀ i, VR N (upd _ _ (highHalf _ _) i) (upd _ _ (highHalf _ _) i)
        rw [hn, hs.len]
        exact upd_VR hs.content (highHalf_VR hs.top _) _
      · exact (h.touchTop hs).setNodes ht.2

theorem merge_VR {a a' b b' : Value} (ha : VR N a a') (hb : VR N b b') : VR N (merge a b) (merge a' b') := by
  cases ha; cases hb; exact .same _ rfl

theorem popShort_R (h : Rel N c c') {s s' : Stack} (hs : SR N s s') : PopR N (popShort s c) (popShort s' c') := by
  unfold popShort
  dsimp only
  rw [hs.size, hs.top.size, hs.len]
  split
  · exact ⟨.same _ rfl, hs, h.error _⟩
  · split
    · exact ⟨hs.top, .of rfl rfl hs.content, h.touchTop hs⟩
    · have h1 : Rel N (if s.len.toNat < 2 then { touchTop s c with oob := true } else touchTop s c)
          (if s.len.toNat < 2 then { touchTop s' c' with oob := true } else touchTop s' c') := by
        split
        · exact (h.touchTop hs).oob
        · exact h.touchTop hs
      have h2 := popByte_R h1 hs
      have h3 := popByte_R h2.run h2.stack
      exact ⟨merge_VR h3.value h2.value, h3.stack, h3.run⟩

theorem popFrom_R (h : Rel N c c') {s s' : Stack} (hs : SR N s s') (short : Bool) : PopR N (popFrom s short c) (popFrom s' short c') := by
  unfold popFrom
  split
  · exact popShort_R h hs
  · exact popByte_R h hs

theorem Rel.realStack (h : Rel N c c') (r : Bool) : SR N (realStack r c) (realStack r c') := by
  cases r
  · exact h.wst
  · exact h.rst

theorem Rel.setReal (h : Rel N c c') (r : Bool) {s s' : Stack} (hs : SR N s s') : Rel N (setReal r s c) (setReal r s' c') := by
  cases h with
  | mk q m w r0 sw sr hq hm hw hr hsw hsr =>
    cases r
    · exact .mk { c with wst := s } q m s' r0 sw sr hq hm hs hr hsw hsr
    · exact .mk { c with rst := s } q m w s' sw sr hq hm hw hs hsw hsr

theorem Rel.popStack (h : Rel N c c') (r : Bool) : SR N (popStack r c) (popStack r c') := by
  unfold Chess.popStack
  rw [h.keep]
  split
  · split
    · exact h.shadowRst
    · exact h.shadowWst
  · exact h.realStack r

theorem Rel.setPop (h : Rel N c c') (r : Bool) {s s' : Stack} (hs : SR N s s') : Rel N (setPop r s c) (setPop r s' c') := by
  unfold Chess.setPop
  rw [h.keep]
  split
  · cases h with
    | mk q m w r0 sw sr hq hm hw hr hsw hsr =>
      cases r
      · exact .mk { c with shadowWst := s } q m w r0 s' sr hq hm hw hr hs hsr
      · exact .mk { c with shadowRst := s } q m w r0 sw s' hq hm hw hr hsw hs
  · exact h.setReal r hs

/-- A value and a run. -/
structure ValR (N : Naming) (x x' : Value × Run) : Prop where
  value : VR N x.1 x'.1
  run : Rel N x.2 x'.2

theorem Rel.popReal (h : Rel N c c') (short r : Bool) : ValR N (popReal short r c) (popReal short r c') := by
  have h1 := popFrom_R h (h.realStack r) short
  exact ⟨h1.value, h1.run.setReal r h1.stack⟩

theorem Rel.popEx (h : Rel N c c') (short r : Bool) : ValR N (popEx short r c) (popEx short r c') := by
  unfold Chess.popEx
  rw [h.terminated]
  split
  · exact ⟨.same _ rfl, h⟩
  · have h1 := popFrom_R h (h.popStack r) short
    exact ⟨h1.value, h1.run.setPop r h1.stack⟩

theorem Rel.pop (h : Rel N c c') : ValR N (pop c) (pop c') := by
  unfold Chess.pop
  rw [h.flag2, h.flagR]
  exact h.popEx _ _

theorem NR.heap {m m' : Nodes} (h : NR N m m') (n : Nat) : VR N (m.heap n) (m'.heap n) := by
  cases h with
  | mk f h => exact h n

theorem Rel.pushEx (h : Rel N c c') (r : Bool) {v v' : Value} (hv : VR N v v') : Rel N (pushEx r v c) (pushEx r v' c') := by
  have hs := h.realStack r
  unfold Chess.pushEx
  dsimp only
  by_cases h0 : c.terminated = true
  · rw [if_pos h0, if_pos (h.terminated.trans h0)]; exact h
  have h0' : ¬ c'.terminated = true := by rw [h.terminated]; exact h0
  rw [if_neg h0, if_neg h0', hs.size, hs.len, hv.size, h.isWrapped]
  split
  · exact h.error _
  have ht : VR N (if 0 < (Chess.realStack r c).len.toNat then top (Chess.realStack r c) else {}) (if 0 < (Chess.realStack r c).len.toNat then top (Chess.realStack r c') else {}) := by
    split
    · exact hs.top
    · exact .same _ rfl
  generalize (if 0 < (Chess.realStack r c).len.toNat then top (Chess.realStack r c) else {}) = t at ht ⊢
  generalize (if 0 < (Chess.realStack r c).len.toNat then top (Chess.realStack r c') else {}) = t' at ht ⊢
  have e1 : t'.halfHi = t.halfHi := by cases ht; rfl
  have e2 : t'.whole = t.whole := by cases ht; rfl
  have e3 : v'.halfLo = v.halfLo := by cases hv; rfl
  have e4 : v'.whole = v.whole := by cases hv; rfl
  rw [e1, e2, e3, e4]
  generalize (c.wrapped || decide ((Chess.realStack r c).size.toNat + v.size = 256)) = b
  have hb := h.wrapped b
  split
  · cases t.whole with
    | none => exact hb.oob
    | some n =>
      refine hb.setReal r ?_
      exact .of rfl rfl (upd_VR hs.content (h.nodes.heap n) _)
  · refine hb.setReal r ?_
    exact .of rfl rfl (upd_VR hs.content hv _)

theorem Rel.push (h : Rel N c c') {v v' : Value} (hv : VR N v v') : Rel N (push v c) (push v' c') := by
  unfold Chess.push
  rw [h.flagR]
  exact h.pushEx _ hv

/-! ## Signatures -/

theorem Rel.checkValue (h : Rel N c c') (d : Direction) {want want' got got' : Value} (hw : WR N want want') (hg : VR N got got') :
    Rel N (checkValue d want got c) (checkValue d want' got' c') := by
  cases hw with
  | mk t ht =>
    cases hg with
    | mk u hu =>
      unfold Chess.checkValue
      dsimp only
      have h1 : Rel N (if want.address && (!got.address && !got.const) then Chess.warning .nonAddress c else c)
          (if want.address && (!got.address && !got.const) then Chess.warning .nonAddress c' else c') := by
        split
        · exact h.warning _
        · exact h
      have h2 : ∀ {c c' : Run}, Rel N c c' → Rel N (if want.routine && !got.routine then Chess.error .notRoutine c else c)
          (if want.routine && !got.routine then Chess.error .notRoutine c' else c') := by
        intro c c' h
        split
        · exact h.error _
        · exact h
      by_cases hn : want.nominal = true
      · rw [if_pos hn, if_pos hn]
        have hp : (got.nominal && t.isPrefixOf u) = (got.nominal && want.type.isPrefixOf got.type) := by
          by_cases hgn : got.nominal = true
          · rw [hgn, Bool.true_and, Bool.true_and, Bool.eq_iff_iff, List.isPrefixOf_iff_prefix, List.isPrefixOf_iff_prefix]
            exact (N.order _ _ _ _ (ht hn) (hu hgn)).symm
          · rw [Bool.not_eq_true] at hgn
            rw [hgn]; rfl
        rw [hp]
        split
        · exact h2 h1
        · exact (h2 h1).error _
      · rw [if_neg hn, if_neg hn]
        exact h2 h1

theorem Rel.checkValues (h : Rel N c c') (d : Direction) (r : Bool) {vs vs' : List Value} (hv : List.Forall₂ (WR N) vs vs') :
    Rel N (checkValues d r vs c) (checkValues d r vs' c') := by
  induction hv generalizing c c' with
  | nil => exact h
  | cons hw _ ih =>
    rename_i want want' _ _ _
    have e : want'.short = want.short := by cases hw; rfl
    have h1 := h.popReal want.short r
    unfold Chess.checkValues
    rw [e]
    exact ih (h1.run.checkValue d hw h1.value)

theorem sigSize_eq {vs vs' : List Value} (hv : List.Forall₂ (WR N) vs vs') : sigSize vs' = sigSize vs := by
  unfold sigSize
  generalize (0 : Byte) = n
  induction hv generalizing n with
  | nil => rfl
  | cons hw _ ih =>
    rw [List.foldl_cons, List.foldl_cons, hw.toVR.size]
    exact ih _

theorem Rel.checkStack (h : Rel N c c') (d : Direction) (r : Bool) {vs vs' : List Value} (hv : List.Forall₂ (WR N) vs vs') :
    Rel N (checkStack d r vs c) (checkStack d r vs' c') := by
  unfold Chess.checkStack
  dsimp only
  rw [(h.realStack r).size, sigSize_eq hv]
  have h0 : ∀ fits : Bool, Rel N (if fits = true then c else Chess.error .sizeMismatch c) (if fits = true then c' else Chess.error .sizeMismatch c') := by
    intro fits
    split
    · exact h
    · exact h.error _
  cases d with
  | out =>
    have h1 := h0 (decide ((Chess.realStack r c).size = sigSize vs))
    dsimp only
    generalize (if decide ((Chess.realStack r c).size = sigSize vs) = true then c else Chess.error .sizeMismatch c) = d at h1 ⊢
    generalize (if decide ((Chess.realStack r c).size = sigSize vs) = true then c' else Chess.error .sizeMismatch c') = d' at h1 ⊢
    rw [h1.terminated]
    split
    · exact h1
    · exact h1.checkValues .out r (List.rel_reverse hv)
  | into =>
    have h1 := h0 (decide ((sigSize vs).toNat ≤ (Chess.realStack r c).size.toNat))
    dsimp only
    generalize (if decide ((sigSize vs).toNat ≤ (Chess.realStack r c).size.toNat) = true then c else Chess.error .sizeMismatch c) = d at h1 ⊢
    generalize (if decide ((sigSize vs).toNat ≤ (Chess.realStack r c).size.toNat) = true then c' else Chess.error .sizeMismatch c') = d' at h1 ⊢
    rw [h1.terminated]
    split
    · exact h1
    · exact h1.checkValues .into r (List.rel_reverse hv)

variable {P P' : Program}

theorem SigR.none : SigR N {} {} := ⟨.nil, .nil, .nil, .nil, rfl⟩

theorem ProgR.sigAt (hP : ProgR N P P') (a : Short) : SigR N (sigAt P a) (sigAt P' a) := by
  unfold Chess.sigAt
  have h := hP.label a
  generalize P.label a = x at h ⊢
  generalize P'.label a = x' at h ⊢
  cases h with
  | no => exact .none
  | yes h =>
    cases h with
    | no => exact .none
    | yes h => exact h

theorem ProgR.isRoutine (hP : ProgR N P P') (a : Short) : isRoutine P' a = isRoutine P a := by
  unfold Chess.isRoutine
  have h := hP.label a
  generalize P.label a = x at h ⊢
  generalize P'.label a = x' at h ⊢
  cases h with
  | no => rfl
  | yes h => cases h <;> rfl

theorem ProgR.isOpcode (hP : ProgR N P P') (a : Short) : isOpcode P' a = isOpcode P a := by
  unfold Chess.isOpcode
  have h := hP.sym a
  generalize P.sym a = x at h ⊢
  generalize P'.sym a = x' at h ⊢
  cases h with
  | no => rfl
  | yes h => cases h; rfl

theorem Rel.checkReturn (h : Rel N c c') (hP : ProgR N P P') : Rel N (checkReturn P c) (checkReturn P' c') := by
  have hs := hP.sigAt c.key
  unfold Chess.checkReturn
  dsimp only
  rw [h.key]
  exact (h.checkStack .out false hs.wstOut).checkStack .out true hs.rstOut

theorem Rel.forked (h : Rel N c c') : ER N (forked c) (forked c') := by
  cases h with
  | mk q m w r sw sr hq hm hw hr hsw hsr => exact .mk (Chess.forked c) w r hw hr

theorem Rel.fork (h : Rel N c c') {e e' : Entry} (he : ER N e e') : Rel N (fork e c) (fork e' c') := by
  cases h with
  | mk q m w r sw sr hq hm hw hr hsw hsr => exact .mk (Chess.fork e c) (e' :: q) m w r sw sr (.cons he hq) hm hw hr hsw hsr

theorem Rel.opBRK (h : Rel N c c') (hP : ProgR N P P') : Rel N (opBRK P c) (opBRK P' c') := by
  unfold Chess.opBRK
  dsimp only
  rw [h.key, (hP.sigAt c.key).kind]
  split
  · exact (((h.error _).setTerminatedAt _).checkReturn hP).terminate
  · exact ((h.setTerminatedAt _).checkReturn hP).terminate

/-! ## Jumps -/

theorem Rel.absJmp (h : Rel N c c') (hP : ProgR N P P') {a a' : Value} (ha : VR N a a') :
    (absJmp P' a' c').1 = (absJmp P a c).1 ∧ Rel N (absJmp P a c).2 (absJmp P' a' c').2 := by
  cases ha with
  | mk t ht =>
    unfold Chess.absJmp
    dsimp only
    split
    · refine ⟨rfl, ?_⟩
      rw [h.key, (hP.sigAt c.key).kind]
      split
      · exact (((h.error _).setTerminatedAt _).checkReturn hP).terminate
      · exact ((h.setTerminatedAt _).checkReturn hP).terminate
    · split
      · exact ⟨rfl, h.setPc a.value⟩
      · exact ⟨rfl, h.error _⟩

theorem Rel.pushAll (h : Rel N c c') (r : Bool) {vs vs' : List Value} (hv : List.Forall₂ (WR N) vs vs') : Rel N (pushAll r vs c) (pushAll r vs' c') := by
  unfold Chess.pushAll
  induction hv generalizing c c' with
  | nil => exact h
  | cons hw _ ih => exact ih (h.pushEx r hw.toVR)

theorem Rel.shortCircuit (h : Rel N c c') (hP : ProgR N P P') (a : Short) : Rel N (shortCircuit P a c) (shortCircuit P' a c') := by
  have hs := hP.sigAt a
  unfold Chess.shortCircuit
  dsimp only
  rw [h.key, (hP.sigAt c.key).kind, hs.kind]
  split
  · exact h.error _
  · have h1 := ((((h.checkStack .into false hs.wstIn).checkStack .into true hs.rstIn).pushAll false hs.wstOut).pushAll true hs.rstOut)
    split
    · rw [h1.rst.size]
      split
      · have h2 := h1.popReal true true
        have h3 := h2.run.absJmp hP h2.value
        generalize Chess.popReal true true (Chess.pushAll true (sigAt P a).rstOut (Chess.pushAll false (sigAt P a).wstOut
          (Chess.checkStack .into true (sigAt P a).rstIn (Chess.checkStack .into false (sigAt P a).wstIn c)))) = x at h3 ⊢
        generalize Chess.popReal true true (Chess.pushAll true (sigAt P' a).rstOut (Chess.pushAll false (sigAt P' a).wstOut
          (Chess.checkStack .into true (sigAt P' a).rstIn (Chess.checkStack .into false (sigAt P' a).wstIn c')))) = x' at h3 ⊢
        rw [h3.1, h3.2.key]
        split
        · exact h3.2.setTerminatedAt _
        · exact h3.2
      · exact h1.error _
    · have h2 := (h1.checkReturn hP).terminate
      rw [h1.key]
      exact h2.setTerminatedAt _

theorem Rel.jump (h : Rel N c c') (hP : ProgR N P P') {a a' : Value} (ha : VR N a a') : Rel N (jump P a c) (jump P' a' c') := by
  have e1 : a'.short = a.short := by cases ha; rfl
  have e2 : a'.const = a.const := by cases ha; rfl
  have e3 : a'.value = a.value := by cases ha; rfl
  unfold Chess.jump
  dsimp only
  by_cases h0 : c.terminated = true
  · rw [if_pos h0, if_pos (h.terminated.trans h0)]; exact h
  · have h0' : ¬ c'.terminated = true := by rw [h.terminated]; exact h0
    rw [if_neg h0, if_neg h0', e1, e2, e3, h.pc]
    have h1 : Rel N (if a.short = true then (Chess.absJmp P a c).2 else if a.const = true then { c with pc := relative c.pc a.value } else Chess.error .unknownAddress c)
        (if a.short = true then (Chess.absJmp P' a' c').2 else if a.const = true then { c' with pc := relative c.pc a.value } else Chess.error .unknownAddress c') := by
      split
      · exact (h.absJmp hP ha).2
      · split
        · exact h.setPc _
        · exact h.error _
    generalize (if a.short = true then (Chess.absJmp P a c).2 else if a.const = true then { c with pc := relative c.pc a.value } else Chess.error .unknownAddress c) = d at h1 ⊢
    generalize (if a.short = true then (Chess.absJmp P' a' c').2 else if a.const = true then { c' with pc := relative c.pc a.value } else Chess.error .unknownAddress c') = d' at h1 ⊢
    by_cases h2 : d.terminated = true
    · rw [if_pos h2, if_pos (h1.terminated.trans h2)]; exact h1
    have h2' : ¬ d'.terminated = true := by rw [h1.terminated]; exact h2
    rw [if_neg h2, if_neg h2']
    by_cases h3 : isRoutine P d.pc = true
    · have h3' : Chess.isRoutine P' d'.pc = true := by rw [h1.pc, hP.isRoutine]; exact h3
      rw [if_pos h3, if_pos h3', h1.pc]
      exact h1.shortCircuit hP _
    have h3' : ¬ Chess.isRoutine P' d'.pc = true := by rw [h1.pc, hP.isRoutine]; exact h3
    rw [if_neg h3, if_neg h3']
    by_cases h4 : (c.pc, d.pc) ∈ d.arcs
    · have h4' : (c.pc, d'.pc) ∈ d'.arcs := by rw [h1.pc, h1.arcs]; exact h4
      rw [if_pos h4, if_pos h4']
      exact (h1.setAgain true).terminate
    · have h4' : ¬ (c.pc, d'.pc) ∈ d'.arcs := by rw [h1.pc, h1.arcs]; exact h4
      rw [if_neg h4, if_neg h4']
      have h5 := h1.setArcs ((c.pc, d'.pc) :: d'.arcs)
      rw [show (c.pc, d.pc) :: d.arcs = (c.pc, d'.pc) :: d'.arcs by rw [h1.pc, h1.arcs]]
      exact h5

theorem Rel.jumpStash (h : Rel N c c') (hP : ProgR N P P') {a a' : Value} (ha : VR N a a') (r : Bool) : Rel N (jumpStash P a r c) (jumpStash P' a' r c') := by
  unfold Chess.jumpStash
  rw [h.pc]
  exact (h.pushEx (!r) (.same _ rfl)).jump hP ha

theorem Rel.jumpConditional (h : Rel N c c') (hP : ProgR N P P') {k k' a a' : Value} (hk : VR N k k') (ha : VR N a a') :
    Rel N (jumpConditional P k a c) (jumpConditional P' k' a' c') := by
  cases hk with
  | mk t ht =>
    unfold Chess.jumpConditional
    dsimp only
    split
    · split
      · exact h.jump hP ha
      · exact h
    · exact (h.fork h.forked).jump hP ha

/-! ## Operations -/

theorem VR.const {v v' : Value} (h : VR N v v') : v'.const = v.const := by cases h; rfl
theorem VR.value {v v' : Value} (h : VR N v v') : v'.value = v.value := by cases h; rfl
theorem VR.short {v v' : Value} (h : VR N v v') : v'.short = v.short := by cases h; rfl
theorem VR.address {v v' : Value} (h : VR N v v') : v'.address = v.address := by cases h; rfl
theorem VR.forked {v v' : Value} (h : VR N v v') : v'.forked = v.forked := by cases h; rfl

theorem Rel.opINC (h : Rel N c c') : Rel N (opINC c) (opINC c') := by
  have h1 := h.pop
  unfold Chess.opINC
  dsimp only
  refine h1.run.push ?_
  have hv := h1.value
  generalize (Chess.pop c).1 = v at hv ⊢
  generalize (Chess.pop c').1 = v' at hv ⊢
  cases hv with
  | mk t ht =>
    dsimp only
    split
    · exact .same _ rfl
    · exact .same _ rfl

theorem Rel.opPOP (h : Rel N c c') : Rel N (opPOP c) (opPOP c') := h.pop.run

theorem Rel.opNIP (h : Rel N c c') : Rel N (opNIP c) (opNIP c') := by
  have h1 := h.pop
  have h2 := h1.run.pop
  exact h2.run.push h1.value

theorem Rel.opSWP (h : Rel N c c') : Rel N (opSWP c) (opSWP c') := by
  have h1 := h.pop
  have h2 := h1.run.pop
  exact (h2.run.push h1.value).push h2.value

theorem Rel.opROT (h : Rel N c c') : Rel N (opROT c) (opROT c') := by
  have h1 := h.pop
  have h2 := h1.run.pop
  have h3 := h2.run.pop
  exact ((h3.run.push h2.value).push h1.value).push h3.value

theorem Rel.opDUP (h : Rel N c c') : Rel N (opDUP c) (opDUP c') := by
  have h1 := h.pop
  exact (h1.run.push h1.value).push h1.value

theorem Rel.opOVR (h : Rel N c c') : Rel N (opOVR c) (opOVR c') := by
  have h1 := h.pop
  have h2 := h1.run.pop
  exact ((h2.run.push h2.value).push h1.value).push h2.value

theorem ER.pushWst {e e' : Entry} (h : ER N e e') {v v' : Value} (hv : VR N v v') : ER N { e with wst := rawPush e.wst v } { e' with wst := rawPush e'.wst v' } := by
  cases h with
  | mk w r hw hr => exact .mk { e with wst := rawPush e.wst v } (rawPush w v') r (rawPush_SR hw hv) hr

theorem ER.pushRst {e e' : Entry} (h : ER N e e') {v v' : Value} (hv : VR N v v') : ER N { e with rst := rawPush e.rst v } { e' with rst := rawPush e'.rst v' } := by
  cases h with
  | mk w r hw hr => exact .mk { e with rst := rawPush e.rst v } w (rawPush r v') hw (rawPush_SR hr hv)

theorem Rel.booleanOp (h : Rel N c c') (f : Short → Short → Bool) : Rel N (booleanOp f c) (booleanOp f c') := by
  have h1 := h.pop
  have h2 := h1.run.pop
  unfold Chess.booleanOp
  dsimp only
  rw [h1.value.const, h1.value.value, h1.value.forked, h2.value.const, h2.value.value, h2.value.forked]
  split
  · exact h2.run.push (.same _ rfl)
  · refine Rel.push (Rel.fork ?_ ?_) (.same _ rfl)
    · rw [h2.run.isWrapped, h2.run.flagR, (h2.run.realStack _).size]
      exact h2.run.wrapped _
    · rw [h2.run.flagR]
      split
      · exact h2.run.forked.pushRst (.same _ rfl)
      · exact h2.run.forked.pushWst (.same _ rfl)

theorem Rel.opJMP (h : Rel N c c') (hP : ProgR N P P') : Rel N (opJMP P c) (opJMP P' c') := h.pop.run.jump hP h.pop.value

theorem Rel.popFlag (h : Rel N c c') (b : Bool) : ValR N (Chess.popEx b (Chess.flagR c) c) (Chess.popEx b (Chess.flagR c') c') := by
  rw [h.flagR]; exact h.popEx _ _

theorem Rel.opJCN (h : Rel N c c') (hP : ProgR N P P') : Rel N (opJCN P c) (opJCN P' c') := by
  have h1 := h.pop
  have h2 := h1.run.popFlag false
  exact h2.run.jumpConditional hP h2.value h1.value

theorem Rel.opJSR (h : Rel N c c') (hP : ProgR N P P') : Rel N (opJSR P c) (opJSR P' c') := by
  have h1 := h.pop
  have h2 := h1.run.jumpStash hP h1.value (Chess.flagR (Chess.pop c).2)
  unfold Chess.opJSR
  dsimp only
  rw [h1.run.flagR]
  exact h2

theorem Rel.opSTH (h : Rel N c c') : Rel N (opSTH c) (opSTH c') := by
  have h1 := h.pop
  have h2 := h1.run.pushEx (!Chess.flagR (Chess.pop c).2) h1.value
  unfold Chess.opSTH
  dsimp only
  rw [h1.run.flagR]
  exact h2

theorem isAddress_eq {v v' : Value} (h : VR N v v') : isAddress v' = isAddress v := by cases h; rfl

theorem Rel.warnUnless (h : Rel N c c') (b : Bool) (w : Doubt) : Rel N (if b = true then c else Chess.warning w c) (if b = true then c' else Chess.warning w c') := by
  split
  · exact h
  · exact h.warning w

theorem Rel.warnIf (h : Rel N c c') (b : Bool) (w : Doubt) : Rel N (if b = true then Chess.warning w c else c) (if b = true then Chess.warning w c' else c') := by
  split
  · exact h.warning w
  · exact h

theorem labelValue_VR (s : Option Sig) {s' : Option Sig} (h : OptR (SigR N) s s') : labelValue s' = labelValue s := by
  cases h <;> rfl

/-- What is loaded, before its width is settled. -/
def loaded (P : Program) (addr : Value) (c : Run) : Value × Run :=
  if addr.const then
    match P.label addr.value with
    | some sig => (labelValue sig, c)
    | none => ({}, if isOpcode P addr.value then Chess.warning .loadCode c else c)
  else ({}, c)

theorem load_eq (P : Program) (addr : Value) (c : Run) : load P addr c = if c.terminated then c else
    let x := loaded P addr (if isAddress addr then c else Chess.warning .loadNonAddress c)
    push { x.1 with short := x.1.short || Chess.flag2 x.2 } x.2 := rfl

theorem loaded_R (h : Rel N c c') (hP : ProgR N P P') {a a' : Value} (ha : VR N a a') :
    (loaded P' a' c').1 = (loaded P a c).1 ∧ (loaded P a c).1.nominal = false ∧ Rel N (loaded P a c).2 (loaded P' a' c').2 := by
  unfold loaded
  rw [ha.const, ha.value]
  by_cases hc : a.const = true
  · rw [if_pos hc, if_pos hc]
    have hl := hP.label a.value
    generalize P.label a.value = x at hl ⊢
    generalize P'.label a.value = x' at hl ⊢
    cases hl with
    | no =>
      refine ⟨rfl, rfl, ?_⟩
      dsimp only
      rw [hP.isOpcode]
      exact h.warnIf _ _
    | yes hs => exact ⟨labelValue_VR _ hs, rfl, h⟩
  · rw [if_neg hc, if_neg hc]
    exact ⟨rfl, rfl, h⟩

theorem Rel.load (h : Rel N c c') (hP : ProgR N P P') {a a' : Value} (ha : VR N a a') : Rel N (load P a c) (load P' a' c') := by
  rw [load_eq, load_eq, isAddress_eq ha]
  by_cases h0 : c.terminated = true
  · rw [if_pos h0, if_pos (h.terminated.trans h0)]; exact h
  have h0' : ¬ c'.terminated = true := by rw [h.terminated]; exact h0
  rw [if_neg h0, if_neg h0']
  have h1 := h.warnUnless (isAddress a) .loadNonAddress
  have h2 := loaded_R h1 hP ha
  dsimp only
  refine h2.2.2.push ?_
  rw [h2.1, h2.2.2.flag2]
  exact .same _ h2.2.1

theorem Rel.store (h : Rel N c c') (hP : ProgR N P P') {a a' : Value} (ha : VR N a a') : Rel N (store P a c) (store P' a' c') := by
  have h1 := h.warnUnless (isAddress a) .storeNonAddress
  unfold Chess.store
  dsimp only
  rw [isAddress_eq ha, ha.const, ha.value, hP.isOpcode]
  by_cases h0 : c.terminated = true
  · rw [if_pos h0, if_pos (h.terminated.trans h0)]; exact h
  have h0' : ¬ c'.terminated = true := by rw [h.terminated]; exact h0
  rw [if_neg h0, if_neg h0']
  generalize (if isAddress a = true then c else Chess.warning .storeNonAddress c) = d at h1 ⊢
  generalize (if isAddress a = true then c' else Chess.warning .storeNonAddress c') = d' at h1 ⊢
  by_cases hc : a.const = true
  · rw [if_pos hc, if_pos hc]
    have hl := hP.label a.value
    generalize P.label a.value = x at hl ⊢
    generalize P'.label a.value = x' at hl ⊢
    cases hl with
    | no => exact h1.warnIf _ _
    | yes hs => exact h1
  · rw [if_neg hc, if_neg hc]
    exact h1

theorem Rel.opLDZ (h : Rel N c c') (hP : ProgR N P P') : Rel N (opLDZ P c) (opLDZ P' c') := by
  have h1 := h.popFlag false
  exact h1.run.load hP h1.value

theorem Rel.opSTZ (h : Rel N c c') (hP : ProgR N P P') : Rel N (opSTZ P c) (opSTZ P' c') := by
  have h1 := h.popFlag false
  exact h1.run.pop.run.store hP h1.value

theorem VR.shift {v v' : Value} (h : VR N v v') (pc : Short) :
    VR N (if v.const then { v with value := relative pc v.value } else v) (if v'.const then { v' with value := relative pc v'.value } else v') := by
  rw [h.const]
  split
  · cases h with
    | mk t ht => exact .mk { v with value := relative pc v.value } t ht
  · exact h

theorem Rel.opLDR (h : Rel N c c') (hP : ProgR N P P') : Rel N (opLDR P c) (opLDR P' c') := by
  have h1 := h.popFlag false
  have h2 := h1.run.load hP (h1.value.shift (Chess.popEx false (Chess.flagR c) c).2.pc)
  unfold Chess.opLDR
  dsimp only
  rw [h1.run.pc]
  exact h2

theorem Rel.opSTR (h : Rel N c c') (hP : ProgR N P P') : Rel N (opSTR P c) (opSTR P' c') := by
  have h1 := h.popFlag false
  have h2 := h1.run.pop.run.store hP (h1.value.shift (Chess.pop (Chess.popEx false (Chess.flagR c) c).2).2.pc)
  unfold Chess.opSTR
  dsimp only
  rw [h1.run.pop.run.pc]
  exact h2

theorem Rel.opLDA (h : Rel N c c') (hP : ProgR N P P') : Rel N (opLDA P c) (opLDA P' c') := by
  have h1 := h.popFlag true
  exact h1.run.load hP h1.value

theorem Rel.opSTA (h : Rel N c c') (hP : ProgR N P P') : Rel N (opSTA P c) (opSTA P' c') := by
  have h1 := h.popFlag true
  exact h1.run.pop.run.store hP h1.value

theorem Rel.opDEI (h : Rel N c c') : Rel N (opDEI c) (opDEI c') := by
  have h1 := h.popFlag false
  have h2 := h1.run.warnUnless (isAddress (Chess.popEx false (Chess.flagR c) c).1) .deiNonAddress
  unfold Chess.opDEI
  dsimp only
  rw [isAddress_eq h1.value, h2.flag2]
  exact h2.push (.same _ rfl)

theorem Rel.opDEO (h : Rel N c c') : Rel N (opDEO c) (opDEO c') := by
  have h1 := h.popFlag false
  have h2 := h1.run.pop
  have h3 := h2.run.warnUnless (isAddress (Chess.popEx false (Chess.flagR c) c).1) .deoNonAddress
  unfold Chess.opDEO
  dsimp only
  rw [isAddress_eq h1.value, h1.value.const, h1.value.value, h2.value.const, h2.value.value, h2.value.short]
  split
  · split
    · exact (h3.tellDeo _ _).tellDeo _ _
    · exact h3.tellDeo _ _
  · exact h3

theorem Rel.binOp (h : Rel N c c') (p : Bool) (f : Short → Short → Short) : Rel N (binOp p f c) (binOp p f c') := by
  have h1 := h.pop
  have h2 := h1.run.pop
  unfold Chess.binOp
  dsimp only
  rw [h1.value.const, h1.value.value, h1.value.address, h2.value.const, h2.value.value, h2.value.address, h2.run.flag2]
  exact h2.run.push (.same _ rfl)

theorem Rel.opMUL (h : Rel N c c') : Rel N (opMUL c) (opMUL c') := by
  have h1 := h.pop
  have h2 := h1.run.pop
  unfold Chess.opMUL
  dsimp only
  rw [h1.value.const, h1.value.value, h2.value.const, h2.value.value]
  generalize ((Chess.pop (Chess.pop c).2).1.const && (Chess.pop c).1.const) = k
  generalize (k && decide (2 ^ 31 ≤ (Chess.pop (Chess.pop c).2).1.value.toNat * (Chess.pop c).1.value.toNat)) = b
  have h3 : Rel N (if b = true then { (Chess.pop (Chess.pop c).2).2 with mulOverflow := true } else (Chess.pop (Chess.pop c).2).2)
      (if b = true then { (Chess.pop (Chess.pop c').2).2 with mulOverflow := true } else (Chess.pop (Chess.pop c').2).2) := by
    split
    · exact h2.run.mulOverflow true
    · exact h2.run
  rw [h3.flag2]
  exact h3.push (.same _ rfl)

theorem Rel.opSFT (h : Rel N c c') : Rel N (opSFT c) (opSFT c') := by
  have h1 := h.popFlag false
  have h2 := h1.run.pop
  unfold Chess.opSFT
  dsimp only
  rw [h1.value.const, h1.value.value, h2.value.const, h2.value.value, h2.run.flag2]
  exact h2.run.push (.same _ rfl)

/-! ## Immediates and literals -/

theorem rom2_eq (hP : ProgR N P P') (a b : Short) : rom2 P' a b = rom2 P a b := by unfold rom2; rw [hP.rom]

theorem Rel.immediate (h : Rel N c c') (hP : ProgR N P P') : ValR N (immediate P c) (immediate P' c') := by
  have h1 := h.setPc (c.pc + 2)
  unfold Chess.immediate
  dsimp only
  rw [h.pc]
  have hx := hP.sym c.pc
  have hy := hP.sym (c.pc + 1)
  generalize P.sym c.pc = x at hx ⊢
  generalize P'.sym c.pc = x' at hx ⊢
  generalize P.sym (c.pc + 1) = y at hy ⊢
  generalize P'.sym (c.pc + 1) = y' at hy ⊢
  cases hx with
  | no => exact ⟨.same _ rfl, h1.error _⟩
  | yes hx =>
    cases hy with
    | no => exact ⟨.same _ rfl, h1.error _⟩
    | yes hy =>
      cases hx
      cases hy
      dsimp only
      rw [rom2_eq hP]
      split
      · exact ⟨.same _ rfl, h1⟩
      · exact ⟨.same _ rfl, h1.error _⟩

theorem Rel.opJCI (h : Rel N c c') (hP : ProgR N P P') : Rel N (opJCI P c) (opJCI P' c') := by
  have h1 := h.immediate hP
  have h2 := h1.run.popEx false false
  exact h2.run.jumpConditional hP h2.value h1.value

theorem Rel.opJMI (h : Rel N c c') (hP : ProgR N P P') : Rel N (opJMI P c) (opJMI P' c') := by
  have h1 := h.immediate hP
  exact h1.run.jump hP h1.value

theorem Rel.opJSI (h : Rel N c c') (hP : ProgR N P P') : Rel N (opJSI P c) (opJSI P' c') := by
  have h1 := h.immediate hP
  exact h1.run.jumpStash hP h1.value false

theorem Rel.litByte (h : Rel N c c') (hP : ProgR N P P') (a : Short) {s s' : Option Sym} (hs : OptR (SymR N) s s') :
    ValR N (litByte P a s c) (litByte P' a s' c') := by
  cases hs with
  | no => exact ⟨.same _ rfl, h.warning _⟩
  | yes hs =>
    cases hs with
    | mk name hn =>
      rename_i s
      unfold Chess.litByte
      dsimp only
      rw [hP.rom]
      by_cases e : s.type = .labelRef
      · rw [if_pos e, if_pos e]
        exact ⟨.mk { address := true, const := true, value := (P.rom a).setWidth 16, nominal := true, type := s.name } name fun _ => .inr (hn e), h⟩
      · rw [if_neg e, if_neg e]
        exact ⟨.same _ rfl, h⟩

theorem sameSym_eq {x x' y y' : Option Sym} (hx : OptR (SymR N) x x') (hy : OptR (SymR N) y y') : sameSym x' y' = sameSym x y := by
  cases hx with
  | no => cases hy <;> rfl
  | yes hx =>
    cases hx
    cases hy with
    | no => rfl
    | yes hy => cases hy; rfl

theorem Rel.lit2 (h : Rel N c c') (hP : ProgR N P P') : Rel N (lit2 P c) (lit2 P' c') := by
  have h1 := h.setPc (c.pc + 2)
  unfold Chess.lit2
  dsimp only
  rw [h.pc, rom2_eq hP]
  generalize ({ c with pc := c.pc + 2 } : Run) = d at h1 ⊢
  generalize ({ c' with pc := c.pc + 2 } : Run) = d' at h1 ⊢
  generalize c.pc = a
  have hla := hP.label a
  have hlb := hP.label (a + 1)
  have hsa := hP.sym a
  have hsb := hP.sym (a + 1)
  generalize P.label a = la at hla ⊢
  generalize P'.label a = la' at hla ⊢
  generalize P.label (a + 1) = lb at hlb ⊢
  generalize P'.label (a + 1) = lb' at hlb ⊢
  generalize P.sym a = sa at hsa ⊢
  generalize P'.sym a = sa' at hsa ⊢
  generalize P.sym (a + 1) = sb at hsb ⊢
  generalize P'.sym (a + 1) = sb' at hsb ⊢
  cases hla with
  | yes hla =>
    cases hlb with
    | yes hlb =>
      dsimp only
      rw [labelValue_VR _ hla, labelValue_VR _ hlb]
      exact (h1.push (.same _ rfl)).push (.same _ rfl)
    | no =>
      cases hsb with
      | no =>
        dsimp only
        rw [labelValue_VR _ hla]
        exact h1.push (.same _ rfl)
      | yes hsb =>
        dsimp only
        rw [labelValue_VR _ hla]
        rename_i la _ _ _
        have h2 := (h1.push (.same (labelValue la) rfl)).litByte hP (a + 1) (.yes hsb)
        exact h2.run.push h2.value
  | no =>
    dsimp only
    rw [sameSym_eq hsa hsb]
    by_cases hss : sameSym sa sb = true
    · rw [if_pos hss, if_pos hss]
      cases hsa with
      | no => exact (h1.warning _).push (.same _ rfl)
      | yes hsa =>
        cases hsa with
        | mk name hn =>
          dsimp only
          split
          · exact h1.push (.same _ rfl)
          · split
            · exact h1.push (.same _ rfl)
            · exact (h1.warning _).push (.same _ rfl)
    · rw [if_neg hss, if_neg hss]
      have h2 := h1.litByte hP a hsa
      have h3 := h2.run.push h2.value
      have h4 := h3.litByte hP (a + 1) hsb
      exact h4.run.push h4.value

theorem Rel.opLIT (h : Rel N c c') (hP : ProgR N P P') : Rel N (opLIT P c) (opLIT P' c') := by
  have h1 := h.setPc (c.pc + 1)
  unfold Chess.opLIT
  dsimp only
  rw [h.flag2]
  by_cases h2 : Chess.flag2 c = true
  · rw [if_pos h2, if_pos h2]
    exact h.lit2 hP
  rw [if_neg h2, if_neg h2, h.pc]
  generalize ({ c with pc := c.pc + 1 } : Run) = d at h1 ⊢
  generalize ({ c' with pc := c.pc + 1 } : Run) = d' at h1 ⊢
  have hl := hP.label c.pc
  have hs := hP.sym c.pc
  generalize P.label c.pc = l at hl ⊢
  generalize P'.label c.pc = l' at hl ⊢
  generalize P.sym c.pc = s at hs ⊢
  generalize P'.sym c.pc = s' at hs ⊢
  cases hl with
  | yes hl =>
    dsimp only
    rw [labelValue_VR _ hl]
    exact h1.push (.same _ rfl)
  | no =>
    cases hs with
    | yes hs =>
      have h3 := h1.litByte hP c.pc (.yes hs)
      exact h3.run.push h3.value
    | no => exact h1.push (.same _ rfl)

theorem Rel.opPoly (h : Rel N c c') (hP : ProgR N P P') (op : Op) : Rel N (opPoly P op c) (opPoly P' op c') := by
  cases op <;> unfold Chess.opPoly <;> dsimp only
  · exact h.opINC
  · exact h.opPOP
  · exact h.opNIP
  · exact h.opSWP
  · exact h.opROT
  · exact h.opDUP
  · exact h.opOVR
  · exact h.booleanOp _
  · exact h.booleanOp _
  · exact h.booleanOp _
  · exact h.booleanOp _
  · exact h.opJMP hP
  · exact h.opJCN hP
  · exact h.opJSR hP
  · exact h.opSTH
  · exact h.opLDZ hP
  · exact h.opSTZ hP
  · exact h.opLDR hP
  · exact h.opSTR hP
  · exact h.opLDA hP
  · exact h.opSTA hP
  · exact h.opDEI
  · exact h.opDEO
  · exact h.binOp _ _
  · exact h.binOp _ _
  · exact h.opMUL
  · exact h.binOp _ _
  · exact h.binOp _ _
  · exact h.binOp _ _
  · exact h.binOp _ _
  · exact h.opSFT

theorem Rel.perform (h : Rel N c c') (hP : ProgR N P P') : Rel N (perform P c) (perform P' c') := by
  unfold Chess.perform
  rw [h.opcode]
  split
  · exact h.opBRK hP
  · exact h.opJCI hP
  · exact h.opJMI hP
  · exact h.opJSI hP
  · exact h.opLIT hP
  · exact h.opPoly hP _
  · exact h

/-! ## Casts -/

theorem Rel.popInputs (h : Rel N c c') (r : Bool) {vs vs' acc acc' : List Value} (hv : List.Forall₂ (WR N) vs vs') (ha : List.Forall₂ (VR N) acc acc') :
    List.Forall₂ (VR N) (popInputs r vs acc c).1 (popInputs r vs' acc' c').1 ∧ Rel N (popInputs r vs acc c).2 (popInputs r vs' acc' c').2 := by
  induction hv generalizing c c' acc acc' with
  | nil => exact ⟨ha, h⟩
  | cons hw _ ih =>
    rename_i want want' _ _ _
    have h1 := h.popReal want.short r
    unfold Chess.popInputs
    rw [hw.toVR.short]
    exact ih h1.run (.cons h1.value ha)

theorem castValue_VR {i i' o o' : Value} (hi : VR N i i') (ho : WR N o o') : VR N (castValue i o) (castValue i' o') := by
  cases hi with
  | mk t ht =>
    cases ho with
    | mk u hu => exact .mk (castValue i o) u fun e => .inl (hu e)

theorem castAll_VR {is is' os os' : List Value} (hi : List.Forall₂ (VR N) is is') (ho : List.Forall₂ (WR N) os os') :
    List.Forall₂ (VR N) (List.zipWith castValue is os) (List.zipWith castValue is' os') := by
  induction hi generalizing os os' with
  | nil => simp only [List.zipWith_nil_left]; exact .nil
  | cons hi _ ih =>
    cases ho with
    | nil => exact .nil
    | cons ho hos => exact .cons (castValue_VR hi ho) (ih hos)

theorem foldl_rawPush_SR {vs vs' : List Value} (hv : List.Forall₂ (VR N) vs vs') {s s' : Stack} (hs : SR N s s') :
    SR N (vs.foldl rawPush s) (vs'.foldl rawPush s') := by
  induction hv generalizing s s' with
  | nil => exact hs
  | cons hw _ ih => exact ih (rawPush_SR hs hw)

theorem Rel.applyCast (h : Rel N c c') (r : Bool) {vs vs' : List Value} (hv : List.Forall₂ (WR N) vs vs') : Rel N (applyCast r vs c) (applyCast r vs' c') := by
  have h1 := h.popInputs r (List.rel_reverse hv) .nil
  unfold Chess.applyCast
  dsimp only
  rw [sigSize_eq hv, (h.realStack r).size]
  split
  · exact h1.2.setReal r (foldl_rawPush_SR (castAll_VR h1.1 hv) (h1.2.realStack r))
  · exact h.error _

theorem Rel.applyCasts (h : Rel N c c') {k k' : Option Cast} (hk : OptR (CastR N) k k') : Rel N (applyCasts k c) (applyCasts k' c') := by
  cases hk with
  | no => exact h
  | yes hk => exact (h.applyCast false hk.wst).applyCast true hk.rst

/-! ## Traces -/

theorem Rel.fetch (h : Rel N c c') (b : Byte) : Rel N { c with opcode := b, inner := false, lowRom := c.lowRom || decide (c.pc.toNat < 256) }
    { c' with opcode := b, inner := false, lowRom := c'.lowRom || decide (c'.pc.toNat < 256) } := by
  cases h with
  | mk q m w r sw sr hq hm hw hr hsw hsr =>
    exact .mk { c with opcode := b, inner := false, lowRom := c.lowRom || decide (c.pc.toNat < 256) } q m w r sw sr hq hm hw hr hsw hsr

theorem Rel.shadow (h : Rel N c c') : Rel N { c with shadowWst := c.wst, shadowRst := c.rst, keep := true } { c' with shadowWst := c'.wst, shadowRst := c'.rst, keep := true } := by
  cases h with
  | mk q m w r sw sr hq hm hw hr hsw hsr =>
    exact .mk { c with shadowWst := c.wst, shadowRst := c.rst, keep := true } q m w r w r hq hm hw hr hw hr

theorem Rel.noShadow (h : Rel N c c') : Rel N { c with keep := false } { c' with keep := false } := by
  cases h with
  | mk q m w r sw sr hq hm hw hr hsw hsr => exact .mk { c with keep := false } q m w r sw sr hq hm hw hr hsw hsr

theorem Rel.setKeep (h : Rel N c c') : Rel N (if Chess.flagK c then { c with shadowWst := c.wst, shadowRst := c.rst, keep := true } else { c with keep := false })
    (if Chess.flagK c' then { c' with shadowWst := c'.wst, shadowRst := c'.rst, keep := true } else { c' with keep := false }) := by
  rw [h.flagK]
  split
  · exact h.shadow
  · exact h.noShadow

theorem Rel.next (h : Rel N c c') : Rel N { c with pc := c.pc + 1 } { c' with pc := c'.pc + 1 } := by
  have h1 := h.setPc (c.pc + 1)
  rw [h.pc]
  exact h1

theorem Rel.instruction (h : Rel N c c') (hP : ProgR N P P') : Rel N (instruction P c) (instruction P' c') := by
  have h1 := h.fetch (P.rom c.pc)
  unfold Chess.instruction
  dsimp only
  have e : P'.rom c'.pc = P.rom c.pc := by rw [hP.rom, h.pc]
  rw [e]
  have hc : OptR (CastR N) (P.cast c.pc) (P'.cast c'.pc) := by rw [h.pc]; exact hP.cast _
  have hs : OptR (SymR N) (P.sym c.pc) (P'.sym c'.pc) := by rw [h.pc]; exact hP.sym _
  generalize P.cast c.pc = k at hc ⊢
  generalize P'.cast c'.pc = k' at hc ⊢
  generalize P.sym c.pc = s at hs ⊢
  generalize P'.sym c'.pc = s' at hs ⊢
  cases hs with
  | no => exact h1.error _
  | yes hs =>
    cases hs with
    | mk name hn =>
      dsimp only
      split
      · exact h1.error _
      · exact (h1.next.setKeep.perform hP).applyCasts hc

theorem Rel.round (h : Rel N c c') (hP : ProgR N P P') : Rel N (round P c) (round P' c') := by
  have h1 := (h.setInner true).shortCircuit hP c.pc
  have h2 := h.instruction hP
  have h3 := h.error .zeroPage
  unfold Chess.round
  by_cases k1 : ¬ c.inner = true ∧ c.pc.toNat < 256
  · have k1' : ¬ c'.inner = true ∧ c'.pc.toNat < 256 := by rw [h.inner, h.pc]; exact k1
    rw [if_pos k1, if_pos k1']
    exact h3
  · have k1' : ¬ (¬ c'.inner = true ∧ c'.pc.toNat < 256) := by rw [h.inner, h.pc]; exact k1
    rw [if_neg k1, if_neg k1']
    by_cases k2 : c.pc ≠ c.key ∧ Chess.isRoutine P c.pc = true
    · have k2' : c'.pc ≠ c'.key ∧ Chess.isRoutine P' c'.pc = true := by rw [h.pc, h.key, hP.isRoutine]; exact k2
      rw [if_pos k2, if_pos k2']
      rw [show Chess.shortCircuit P' c'.pc = Chess.shortCircuit P' c.pc by rw [h.pc]]
      exact h1
    · have k2' : ¬ (c'.pc ≠ c'.key ∧ Chess.isRoutine P' c'.pc = true) := by rw [h.pc, h.key, hP.isRoutine]; exact k2
      rw [if_neg k2, if_neg k2']
      exact h2

theorem Rel.startTrace (h : Rel N c c') (hP : ProgR N P P') {e e' : Entry} (he : ER N e e') : Rel N (startTrace P e c) (startTrace P' e' c') := by
  cases h with
  | mk q m w r sw sr hq hm hw hr hsw hsr =>
    cases he with
    | mk w0 r0 hw0 hr0 =>
      cases hm with
      | mk f hf =>
        unfold Chess.startTrace
        dsimp only
        have h1 : Rel N
            { c with
              key := e.key, wst := e.wst, rst := e.rst, trace := e.trace, parent := e.parent
              nodes := { c.nodes with taken := [] }, pc := e.address, opcode := 0, keep := false, terminated := false, ok := false
              inner := false, running := true, again := false
              log := c.log ++ [.beginTrace e.trace e.parent] } _ :=
          .mk _ q { c.nodes with taken := [], heap := f } w0 r0 sw sr hq (.mk { c.nodes with taken := [] } f hf) hw0 hr0 hsw hsr
        have hs := hP.sym e.address
        generalize P.sym e.address = s at hs ⊢
        generalize P'.sym e.address = s' at hs ⊢
        cases hs with
        | no => exact (h1.error _).setRunning false
        | yes hs => exact h1

theorem Rel.endTrace (h : Rel N c c') : Rel N (endTrace c) (endTrace c') := by
  cases h with
  | mk q m w r sw sr hq hm hw hr hsw hsr =>
    cases hm with
    | mk f hf =>
      exact .mk (Chess.endTrace c) q { c.nodes with heap := f, pool := c.nodes.taken.reverse ++ c.nodes.pool, taken := [] } w r sw sr hq
        (.mk { c.nodes with pool := c.nodes.taken.reverse ++ c.nodes.pool, taken := [] } f hf) hw hr hsw hsr

theorem Rel.setQueue (h : Rel N c c') {q q' : List Entry} (hq' : List.Forall₂ (ER N) q q') : Rel N { c with queue := q } { c' with queue := q' } := by
  cases h with
  | mk q0 m w r sw sr hq hm hw hr hsw hsr => exact .mk { c with queue := q } q' m w r sw sr hq' hm hw hr hsw hsr

theorem Rel.advance (h : Rel N c c') (hP : ProgR N P P') : OptR (Rel N) (advance P c) (advance P' c') := by
  unfold Chess.advance
  rw [h.running, h.terminated]
  split
  · split
    · exact .yes h.endTrace
    · exact .yes (h.round hP)
  · have hq := h.queue
    generalize c.queue = q at hq ⊢
    generalize c'.queue = q' at hq ⊢
    cases hq with
    | nil => exact .no
    | cons he hq => exact .yes ((h.setQueue hq).startTrace hP he)

theorem Rel.steps (h : Rel N c c') (hP : ProgR N P P') (n : Nat) : Rel N (steps P n c) (steps P' n c') := by
  induction n generalizing c c' with
  | zero => exact h
  | succ n ih =>
    have ha := h.advance hP
    unfold Chess.steps
    generalize Chess.advance P c = x at ha ⊢
    generalize Chess.advance P' c' = x' at ha ⊢
    cases ha with
    | no => exact h
    | yes ha => exact ih ha

theorem Rel.markedAt (h : Rel N c c') : c'.markedAt = c.markedAt := by cases h; rfl
theorem Rel.errorAt (h : Rel N c c') : c'.errorAt = c.errorAt := by cases h; rfl
theorem Rel.terminatedAt (h : Rel N c c') : c'.terminatedAt = c.terminatedAt := by cases h; rfl
theorem Rel.log (h : Rel N c c') : c'.log = c.log := by cases h; rfl
theorem Rel.success (h : Rel N c c') : c'.success = c.success := by cases h; rfl

theorem Rel.complain (h : Rel N c c') (a : Short) : Rel N { c with log := c.log ++ [.noTermination a], success := false } { c' with log := c'.log ++ [.noTermination a], success := false } := by
  cases h with
  | mk q m w r sw sr hq hm hw hr hsw hsr =>
    exact .mk { c with log := c.log ++ [.noTermination a], success := false } q m w r sw sr hq hm hw hr hsw hsr

theorem Rel.checkTermination (h : Rel N c c') (as : List Short) : Rel N (checkTermination as c) (checkTermination as c') := by
  induction as generalizing c c' with
  | nil => exact h
  | cons a as ih =>
    have h1 := ih (h.complain a)
    unfold Chess.checkTermination
    by_cases k : c.markedAt a = true ∧ ¬ c.errorAt a = true ∧ ¬ c.terminatedAt a = true
    · have k' : c'.markedAt a = true ∧ ¬ c'.errorAt a = true ∧ ¬ c'.terminatedAt a = true := by
        rw [h.markedAt, h.errorAt, h.terminatedAt]; exact k
      rw [if_pos k, if_pos k']
      exact h1
    · have k' : ¬ (c'.markedAt a = true ∧ ¬ c'.errorAt a = true ∧ ¬ c'.terminatedAt a = true) := by
        rw [h.markedAt, h.errorAt, h.terminatedAt]; exact k
      rw [if_neg k, if_neg k']
      exact ih h

end Buxn.Chess.Names
