import Verif.Asm.Rom
import Mathlib.Data.List.Nodup
import Mathlib.Data.List.Pairwise
/-!
# C35: references

Every reference in a program that assembles ends up holding the value that belongs to the address of its label, no matter
whether the label was defined before or after the reference was written.
-/

namespace Buxn.Asm
open Buxn.VM Spec

/-! ## Specification -/

namespace Spec

/-- The number that a reference at `a` to a label at `l` stands for. -/
def refValue (kind : RefKind) (a l : Short) : Int :=
  match kind with
  | .zero => (l.toNat : Int) % 256
  | .abs => l.toNat
  | .rel => (l.toNat : Int) - (a.toNat + 2)

/-- The memory at `a` holds a number, most significant byte first. -/
def HoldsNumber (mem : Short → Byte) (a : Short) (size : RefSize) (v : Int) : Prop :=
  match size with
  | .byte => mem a = BitVec.ofInt 8 v
  | .short => mem a = BitVec.ofInt 8 (v / 256) ∧ mem (a + 1) = BitVec.ofInt 8 v

/-- The addresses at which bytes were written, apart from the ones filled in later; newest first. -/
def emitted (log : List Event) : List Short :=
  log.filterMap fun
    | .rom a _ false => some a
    | _ => none

/-- A reference: its address, what it looks like, and the name (if it has one) and number of its label. -/
structure Ref where
  addr : Short
  kind : RefKind
  size : RefSize
  target : Option Str
  id : Short
  deriving DecidableEq

/-- The references written. -/
def refs (log : List Event) : List Ref :=
  log.filterMap fun
    | .ref a k z t id => some ⟨a, k, z, t, id⟩
    | _ => none

/-- The labels announced: their addresses and descriptions. -/
def labels (log : List Event) : List (Short × SymInfo) :=
  log.filterMap fun
    | .sym a i => if i.type = .label then some (a, i) else none
    | _ => none

/-- `(l, i)` is the label that a reference is about: it has the number that the reference mentions, and also the name if
there is one. -/
def Names (r : Ref) (i : SymInfo) : Prop := i.id = r.id ∧ ∀ name, r.target = some name → i.name = some name ∧ i.generated = false

/-- A signed byte can express the distance. -/
def InReach (kind : RefKind) (size : RefSize) (a l : Short) : Prop :=
  kind = .rel → size = .byte → -128 ≤ refValue kind a l ∧ refValue kind a l ≤ 127

end Spec

/-! ## What a log contains -/

/-- The parts of a log that matter for references. -/
structure View where
  written : List (Short × Byte)
  emitted : List Short
  refs : List Ref
  labels : List (Short × SymInfo)

def view (log : List Event) : View := ⟨written log, emitted log, Spec.refs log, labels log⟩

/-- The byte at an address. -/
def img (w : List (Short × Byte)) (a : Short) : Byte :=
  match w.find? (fun p => p.1 = a) with
  | some p => p.2
  | none => 0

theorem image_eq (log : List Event) : image log = img (written log) := rfl

theorem img_append_of_not_mem (n w : List (Short × Byte)) (a : Short) (h : a ∉ n.map (·.1)) : img (n ++ w) a = img w a := by
  unfold img
  rw [List.find?_append, (List.find?_eq_none.2 _ : n.find? (fun p => p.1 = a) = none)]
  · rfl
  · intro p hp
    simp only [decide_eq_true_eq]
    rintro rfl
    exact h (List.mem_map_of_mem hp)

/-- The addresses of a reference. -/
def cells (a : Short) : RefSize → List Short
  | .byte => [a]
  | .short => [a + 1, a]

def Spec.Ref.cells (r : Ref) : List Short := Asm.cells r.addr r.size

theorem HoldsNumber.congr {m m' : Short → Byte} {a : Short} {z : RefSize} {v : Int} (h : ∀ b ∈ cells a z, m' b = m b) (hm : HoldsNumber m a z v) :
    HoldsNumber m' a z v := by
  cases z with
  | byte =>
    simp only [HoldsNumber, Asm.cells] at *
    rw [h a (by simp)]; exact hm
  | short =>
    simp only [HoldsNumber, Asm.cells] at *
    rw [h a (by simp), h (a + 1) (by simp)]; exact hm

/-- The reference has its final value. -/
def Resolved (w : List (Short × Byte)) (ls : List (Short × SymInfo)) (r : Ref) : Prop :=
  ∃ l i, (l, i) ∈ ls ∧ Names r i ∧ InReach r.kind r.size r.addr l ∧ HoldsNumber (img w) r.addr r.size (refValue r.kind r.addr l)

def refOfF (target : Option Str) (id : Short) (f : FRef) : Ref := ⟨f.addr, f.kind, f.size, target, id⟩

/-- The reference is in one of the lists of the assembler. -/
def Pending (s : Asm) (r : Ref) : Prop :=
  (∃ name n id fs, s.symtab name = some n ∧ n.entry = .forward id fs ∧ ∃ f ∈ fs, r = refOfF (some name) id f) ∨
  ∃ f ∈ s.lambdas, r = refOfF none f.labelId f

structure Core (v : View) (s : Asm) : Prop where
  refs : ∀ r ∈ v.refs, Resolved v.written v.labels r ∨ Pending s r
  fwd : ∀ name n id fs, s.symtab name = some n → n.entry = .forward id fs → ∀ f ∈ fs, refOfF (some name) id f ∈ v.refs
  lam : ∀ f ∈ s.lambdas, refOfF none f.labelId f ∈ v.refs
  cells : (v.refs.flatMap Ref.cells).Sublist v.emitted
  labs : ∀ name n id a, s.symtab name = some n → n.entry = .label id a → ∃ i, (a, i) ∈ v.labels ∧ i.id = id ∧ i.name = some name ∧ i.generated = false
  ats : ∀ l ∈ s.atLabels, ∃ i, (l.addr, i) ∈ v.labels ∧ i.id = l.labelId
  names : ∀ name n, s.symtab name = some n → name ∈ s.names
  uniq : ∀ a i, (a, i) ∈ v.labels → i.generated = false → ∃ name n, i.name = some name ∧ s.symtab name = some n ∧ n.entry = .label i.id a

/-! ## Steps of the view -/

theorem Resolved.mono {w : List (Short × Byte)} {ls : List (Short × SymInfo)} {r : Ref} (h : Resolved w ls r) (n : List (Short × Byte)) (ls' : List (Short × SymInfo))
    (hl : ∀ x ∈ ls, x ∈ ls') (hn : ∀ a ∈ r.cells, a ∉ n.map (·.1)) : Resolved (n ++ w) ls' r := by
  obtain ⟨l, i, hm, hi, hreach, hv⟩ := h
  exact ⟨l, i, hl _ hm, hi, hreach, HoldsNumber.congr (fun b hb => img_append_of_not_mem _ _ _ (hn b hb)) hv⟩

theorem Core.cells_disjoint {v : View} {s : Asm} (c : Core v s) (h : v.emitted.Nodup) {r r' : Ref} (hr : r ∈ v.refs) (hr' : r' ∈ v.refs) (hne : r ≠ r') :
    List.Disjoint r.cells r'.cells := by
  have h2 := (List.nodup_flatMap.1 (c.cells.nodup h)).2
  have : Std.Symm (Function.onFun List.Disjoint Ref.cells) := ⟨fun _ _ h _ h1 h2 => h h2 h1⟩
  exact List.Pairwise.forall h2 hr hr' hne

theorem Core.cells_sub {v : View} {s : Asm} (c : Core v s) {r : Ref} (hr : r ∈ v.refs) {a : Short} (ha : a ∈ r.cells) : a ∈ v.emitted :=
  c.cells.subset (List.mem_flatMap.2 ⟨r, hr, ha⟩)

/-- New bytes at new addresses. -/
theorem Core.emits {w : List (Short × Byte)} {e : List Short} {rs : List Ref} {ls : List (Short × SymInfo)} {s : Asm} (c : Core ⟨w, e, rs, ls⟩ s)
    (n : List (Short × Byte)) (h : (n.map (·.1) ++ e).Nodup) : Core ⟨n ++ w, n.map (·.1) ++ e, rs, ls⟩ s where
  refs r hr := (c.refs r hr).imp (fun h' => h'.mono n ls (fun _ h => h) fun a ha hn =>
    (List.nodup_append.1 h).2.2 a hn a (c.cells_sub hr ha) rfl) id
  fwd := c.fwd
  lam := c.lam
  cells := c.cells.trans (List.sublist_append_right _ _)
  labs := c.labs
  ats := c.ats
  names := c.names
  uniq := c.uniq

/-- Only the state changes, in fields that do not matter. -/
theorem Core.frame {v : View} {s s' : Asm} (c : Core v s) (h1 : s'.symtab = s.symtab) (h2 : s'.names = s.names) (h3 : s'.lambdas = s.lambdas)
    (h4 : ∀ l ∈ s'.atLabels, l ∈ s.atLabels) : Core v s' where
  refs r hr := (c.refs r hr).imp id (by unfold Pending; rw [h1, h3]; exact id)
  fwd := by rw [h1]; exact c.fwd
  lam := by rw [h3]; exact c.lam
  cells := c.cells
  labs := by rw [h1]; exact c.labs
  ats l hl := c.ats l (h4 l hl)
  names := by rw [h1, h2]; exact c.names
  uniq := by rw [h1]; exact c.uniq

/-- The entry of one symbol changes to something that is neither a forward reference nor a label, from something that has no references. -/
theorem Core.setOther {v : View} {s : Asm} (c : Core v s) (name : Str) (n : Node) (hold : ∀ m, s.symtab name = some m → (∀ id a, m.entry ≠ .label id a) ∧ ∀ id fs, m.entry ≠ .forward id fs)
    (hn : (∀ id a, n.entry ≠ .label id a) ∧ ∀ id fs, n.entry ≠ .forward id fs) (names : List Str) (hnames : name ∈ names ∧ ∀ x ∈ s.names, x ∈ names) :
    Core v { setNode name n s with names := names } where
  refs r hr := (c.refs r hr).imp id (by
    rintro (⟨nm, m, id, fs, hm, he, f, hf, rfl⟩ | h)
    · refine .inl ⟨nm, m, id, fs, ?_, he, f, hf, rfl⟩
      simp only [setNode]
      rw [if_neg]
      · exact hm
      · rintro rfl; exact (hold m hm).2 _ _ he
    · exact .inr h)
  fwd nm m id fs hm he := by
    simp only [setNode] at hm
    split at hm
    · cases hm; exact absurd he (hn.2 _ _)
    · exact c.fwd nm m id fs hm he
  lam := c.lam
  cells := c.cells
  labs nm m id fs hm he := by
    simp only [setNode] at hm
    split at hm
    · cases hm; exact absurd he (hn.1 _ _)
    · exact c.labs nm m id fs hm he
  ats := c.ats
  names nm m hm := by
    simp only [setNode] at hm
    split at hm
    · subst nm; exact hnames.1
    · exact hnames.2 _ (c.names nm m hm)
  uniq a i hi hg := by
    obtain ⟨nm, m, h1, h2, h3⟩ := c.uniq a i hi hg
    refine ⟨nm, m, h1, ?_, h3⟩
    simp only [setNode]
    rw [if_neg]
    · exact h2
    · rintro rfl; exact (hold m h2).1 _ _ h3

/-- The entry of a symbol stays the same. -/
theorem Core.setSame {v : View} {s : Asm} (c : Core v s) (name : Str) (n m : Node) (hold : s.symtab name = some m) (hn : n.entry = m.entry) : Core v (setNode name n s) where
  refs r hr := (c.refs r hr).imp id (by
    rintro (⟨nm, m', id, fs, hm, he, f, hf, rfl⟩ | h)
    · by_cases hk : nm = name
      · subst hk
        rw [hold] at hm; cases hm
        exact .inl ⟨nm, n, id, fs, by simp [setNode], by rw [hn, he], f, hf, rfl⟩
      · exact .inl ⟨nm, m', id, fs, by simp only [setNode]; rw [if_neg hk]; exact hm, he, f, hf, rfl⟩
    · exact .inr h)
  fwd nm m' id fs hm he := by
    simp only [setNode] at hm
    split at hm
    · subst nm; cases hm; exact c.fwd name m id fs hold (by rw [← hn, he])
    · exact c.fwd nm m' id fs hm he
  lam := c.lam
  cells := c.cells
  labs nm m' id fs hm he := by
    simp only [setNode] at hm
    split at hm
    · subst nm; cases hm; exact c.labs name m id fs hold (by rw [← hn, he])
    · exact c.labs nm m' id fs hm he
  ats := c.ats
  names nm m' hm := by
    simp only [setNode] at hm
    split at hm
    · subst nm; exact c.names name m hold
    · exact c.names nm m' hm
  uniq a i hi hg := by
    obtain ⟨nm, m', h1, h2, h3⟩ := c.uniq a i hi hg
    by_cases hk : nm = name
    · subst hk
      rw [hold] at h2; cases h2
      exact ⟨nm, n, h1, by simp [setNode], by rw [hn, h3]⟩
    · exact ⟨nm, m', h1, by simp only [setNode]; rw [if_neg hk]; exact h2, h3⟩

/-! ## Numbers -/

theorem lo8_ofInt (v : Int) : lo8 (BitVec.ofInt 16 v) = BitVec.ofInt 8 v := by
  apply BitVec.eq_of_toNat_eq
  simp only [lo8, BitVec.toNat_setWidth, BitVec.toNat_ofInt]
  have h1 : (0 : Int) ≤ v % (2 ^ 16 : Nat) := Int.emod_nonneg _ (by decide)
  have h2 : (0 : Int) ≤ v % (2 ^ 8 : Nat) := Int.emod_nonneg _ (by decide)
  have : ((v % (2 ^ 16 : Nat)).toNat % 2 ^ 8 : Nat) = ((v % (2 ^ 16 : Nat)) % (2 ^ 8 : Nat)).toNat := by omega
  rw [this]
  congr 1
  rw [Int.emod_emod_of_dvd]
  exact ⟨256, by norm_num⟩

theorem hi8_ofInt (v : Int) : hi8 (BitVec.ofInt 16 v) = BitVec.ofInt 8 (v / 256) := by
  apply BitVec.eq_of_toNat_eq
  simp only [hi8, BitVec.toNat_setWidth, BitVec.toNat_ushiftRight, BitVec.toNat_ofInt, Nat.shiftRight_eq_div_pow]
  omega

theorem calculateAddr_value (t : Token) (k : RefKind) (a l : Short) (s : Asm) : (calculateAddr t k a l s).1 = refValue k a l := by
  cases k with
  | zero =>
    simp only [calculateAddr, refValue]
    rw [BitVec.toNat_and, show (0xff : Short).toNat = 2 ^ 8 - 1 from rfl, Nat.and_two_pow_sub_one_eq_mod]
    omega
  | abs => rfl
  | rel => rfl

/-! ## What the functions append -/

/-- The bytes of a number, newest first. -/
def numberAt (a : Short) (z : RefSize) (x : Short) : List (Short × Byte) :=
  match z with
  | .byte => [(a, lo8 x)]
  | .short => [(a + 1, lo8 x), (a, hi8 x)]

theorem numberAt_addrs (a : Short) (z : RefSize) (x : Short) : (numberAt a z x).map (·.1) = cells a z := by cases z <;> rfl

theorem numberAt_holds (a : Short) (z : RefSize) (v : Int) (w : List (Short × Byte)) : HoldsNumber (img (numberAt a z (BitVec.ofInt 16 v) ++ w)) a z v := by
  cases z with
  | byte => simp [HoldsNumber, numberAt, img, lo8_ofInt]
  | short =>
    have : a + 1 ≠ a := by
      intro h
      have := congrArg BitVec.toNat h
      rw [BitVec.toNat_add, show (1 : Short).toNat = 1 from rfl] at this
      have := a.isLt
      omega
    simp [HoldsNumber, numberAt, img, lo8_ofInt, hi8_ofInt, this]

/-- What a step does to the view, and that it leaves everything else alone. -/
structure Step (s s' : Asm) (n : List (Short × Byte)) (e : List Short) (rs : List Ref) (ls : List (Short × SymInfo)) : Prop where
  view : view s'.log = ⟨n ++ written s.log, e ++ emitted s.log, rs ++ Spec.refs s.log, ls ++ labels s.log⟩
  symtab : s'.symtab = s.symtab
  names : s'.names = s.names
  lambdas : s'.lambdas = s.lambdas
  atLabels : s'.atLabels = s.atLabels

theorem Step.trans {a b c : Asm} {n n' : List (Short × Byte)} {e e' : List Short} {rs rs' : List Ref} {ls ls' : List (Short × SymInfo)}
    (h : Step a b n e rs ls) (h' : Step b c n' e' rs' ls') : Step a c (n' ++ n) (e' ++ e) (rs' ++ rs) (ls' ++ ls) where
  view := by
    rw [h'.view]
    have := h.view
    simp only [Asm.view, View.mk.injEq] at this
    simp only [this.1, this.2.1, this.2.2.1, this.2.2.2, List.append_assoc]
  symtab := h'.symtab.trans h.symtab
  names := h'.names.trans h.names
  lambdas := h'.lambdas.trans h.lambdas
  atLabels := h'.atLabels.trans h.atLabels

theorem Step.refl (s : Asm) : Step s s [] [] [] [] := ⟨rfl, rfl, rfl, rfl, rfl⟩

theorem Step.setWriteAddr (a : Short) (s : Asm) : Step s { s with writeAddr := a } [] [] [] [] := ⟨rfl, rfl, rfl, rfl, rfl⟩

theorem Ext.ok {s s' : Asm} (h : Ext s s') (hs : s'.success = true) : s.success = true := by
  obtain ⟨_, _, _, hk⟩ := h
  exact (hk.1 hs).1

/-- Success of both parts. -/
theorem andThen_ok {r : Bool × Asm} {f : Asm → Bool × Asm} {P : Prop} (hr : r.2.success = true → r.1 = true ∧ P) (hf : Ext r.2 (f r.2).2)
    (h : (andThen r f).2.success = true) : P ∧ andThen r f = f r.2 := by
  unfold andThen at h ⊢
  split at h
  · rename_i h1
    rw [if_pos h1]
    exact ⟨(hr (hf.ok h)).2, rfl⟩
  · rename_i h1
    exact absurd (hr h).1 h1

theorem emit_step (t : Token) (b : Byte) (p : Bool) (s : Asm) (h : (emit t b p s).2.success = true) :
    (emit t b p s).1 = true ∧ (emit t b p s).2.writeAddr = s.writeAddr + 1 ∧ Step s (emit t b p s).2 [(s.writeAddr, b)] (if p then [] else [s.writeAddr]) [] [] := by
  unfold emit at h ⊢
  dsimp only at h ⊢
  split
  · rename_i hz; rw [if_pos hz] at h; cases h
  · refine ⟨rfl, rfl, ?_, rfl, rfl, rfl, rfl⟩
    cases p <;> rfl

theorem emit2_step (t : Token) (x : Short) (p : Bool) (s : Asm) (h : (emit2 t x p s).2.success = true) :
    (emit2 t x p s).1 = true ∧ Step s (emit2 t x p s).2 (numberAt s.writeAddr .short x) (if p then [] else cells s.writeAddr .short) [] [] := by
  unfold emit2 at h ⊢
  obtain ⟨⟨h1, h2⟩, he⟩ := andThen_ok (emit_step t (hi8 x) p s) (andThen_ext (emit_ext _ _ _ _) fun s => .refl s) h
  rw [he] at h ⊢
  obtain ⟨⟨h3, h4⟩, he'⟩ := andThen_ok (emit_step t (lo8 x) p _) (.refl _) h
  rw [he']
  rw [h1] at h4
  refine ⟨rfl, ?_⟩
  have := h2.trans h4
  cases p <;> exact this

theorem putSymbol_step (a : Short) (i : SymInfo) (s : Asm) (hi : i.type ≠ .label) : Step s (putSymbol a i s) [] [] [] [] := by
  refine ⟨?_, rfl, rfl, rfl, rfl⟩
  simp [Asm.view, putSymbol, written, emitted, Spec.refs, labels, hi]

theorem putSymbol2_step (a : Short) (i : SymInfo) (s : Asm) (hi : i.type ≠ .label) : Step s (putSymbol2 a i s) [] [] [] [] :=
  (putSymbol_step a i s hi).trans (putSymbol_step _ i _ hi)

theorem putLabel_step (a : Short) (i : SymInfo) (s : Asm) (hi : i.type = .label) : Step s (putSymbol a i s) [] [] [] [(a, i)] := by
  refine ⟨?_, rfl, rfl, rfl, rfl⟩
  simp [Asm.view, putSymbol, written, emitted, Spec.refs, labels, hi]

theorem markRef_step (a : Short) (k : RefKind) (z : RefSize) (n : Option Str) (id : Short) (s : Asm) : Step s (markRef a k z n id s) [] [] [⟨a, k, z, n, id⟩] [] := by
  refine ⟨?_, rfl, rfl, rfl, rfl⟩
  simp [Asm.view, markRef, written, emitted, Spec.refs, labels]

theorem emitPlaceholder_step (t : Token) (k : RefKind) (z : RefSize) (name : Option Str) (id : Short) (r : Bool) (s : Asm)
    (h : (emitPlaceholder t k z name id r s).2.success = true) :
    (emitPlaceholder t k z name id r s).1 = true ∧
    Step s (emitPlaceholder t k z name id r s).2 (numberAt s.writeAddr z 1) (cells s.writeAddr z) [⟨s.writeAddr, k, z, name, id⟩] [] := by
  unfold emitPlaceholder at h ⊢
  cases z with
  | byte =>
    dsimp only at h ⊢
    obtain ⟨⟨_, h2⟩, he⟩ := andThen_ok (emit_step t 0x01 false s) ((markRef_ext _ _ _ _ _ _).trans (putSymbol_ext _ _ _)) h
    rw [he]
    exact ⟨rfl, (h2.trans (markRef_step _ _ _ _ _ _)).trans (putSymbol_step _ _ _ (by simp))⟩
  | short =>
    dsimp only at h ⊢
    obtain ⟨h2, he⟩ := andThen_ok (emit2_step t 0x01 false s) ((markRef_ext _ _ _ _ _ _).trans (putSymbol2_ext _ _ _)) h
    rw [he]
    exact ⟨rfl, (h2.trans (markRef_step _ _ _ _ _ _)).trans (putSymbol2_step _ _ _ (by simp))⟩

theorem calculateAddr_step (t : Token) (k : RefKind) (a l : Short) (s : Asm) :
    Step s (calculateAddr t k a l s).2 [] [] [] [] ∧ (calculateAddr t k a l s).2.writeAddr = s.writeAddr := by
  cases k with
  | zero =>
    unfold calculateAddr
    dsimp only
    split
    · exact ⟨⟨rfl, rfl, rfl, rfl, rfl⟩, rfl⟩
    · exact ⟨.refl s, rfl⟩
  | abs => exact ⟨.refl s, rfl⟩
  | rel => exact ⟨.refl s, rfl⟩

theorem emitAddr_step (t : Token) (k : RefKind) (z : RefSize) (v : Int) (i : Option SymInfo) (p : Bool) (s : Asm) (hi : ∀ x, i = some x → x.type ≠ .label)
    (h : (emitAddr t k z v i p s).2.success = true) :
    (emitAddr t k z v i p s).1 = true ∧ (k = .rel → z = .byte → -128 ≤ v ∧ v ≤ 127) ∧
    Step s (emitAddr t k z v i p s).2 (numberAt s.writeAddr z (BitVec.ofInt 16 v)) (if p then [] else cells s.writeAddr z) [] [] := by
  unfold emitAddr at h ⊢
  cases z with
  | byte =>
    dsimp only at h ⊢
    split
    · rename_i hc; rw [if_pos hc] at h; cases h
    · rename_i hc; rw [if_neg hc] at h
      have hreach : k = .rel → RefSize.byte = .byte → -128 ≤ v ∧ v ≤ 127 := fun hk _ => by
        rw [not_and_or] at hc
        rcases hc with hc | hc
        · exact absurd hk hc
        · omega
      cases i with
      | none =>
        obtain ⟨⟨_, h2⟩, he⟩ := andThen_ok (emit_step t _ p s) (.refl _) h
        rw [he]
        exact ⟨rfl, hreach, h2⟩
      | some i =>
        obtain ⟨⟨_, h2⟩, he⟩ := andThen_ok (emit_step t _ p s) (putSymbol_ext _ _ _) h
        rw [he]
        exact ⟨rfl, hreach, h2.trans (putSymbol_step _ _ _ (hi i rfl))⟩
  | short =>
    dsimp only at h ⊢
    cases i with
    | none =>
      obtain ⟨h2, he⟩ := andThen_ok (emit2_step t _ p s) (.refl _) h
      rw [he]
      exact ⟨rfl, fun _ h => (by cases h), h2⟩
    | some i =>
      obtain ⟨h2, he⟩ := andThen_ok (emit2_step t _ p s) (putSymbol2_ext _ _ _) h
      rw [he]
      exact ⟨rfl, fun _ h => (by cases h), h2.trans (putSymbol2_step _ _ _ (hi i rfl))⟩

theorem emitBackwardRef_step (t : Token) (k : RefKind) (z : RefSize) (name : Option Str) (id l : Short) (w r : Bool) (s : Asm)
    (h : (emitBackwardRef t k z name id l w r s).2.success = true) :
    (emitBackwardRef t k z name id l w r s).1 = true ∧ InReach k z s.writeAddr l ∧
    Step s (emitBackwardRef t k z name id l w r s).2 (numberAt s.writeAddr z (BitVec.ofInt 16 (refValue k s.writeAddr l)))
      (if w then cells s.writeAddr z else []) (if w then [⟨s.writeAddr, k, z, name, id⟩] else []) [] := by
  unfold emitBackwardRef at h ⊢
  dsimp only at h ⊢
  have hv := calculateAddr_value t k s.writeAddr l s
  have hc := calculateAddr_step t k s.writeAddr l s
  generalize calculateAddr t k s.writeAddr l s = p at h hv hc
  obtain ⟨v, s1⟩ := p
  obtain ⟨hc1, hc2⟩ := hc
  dsimp only at h hv hc1 hc2 ⊢
  subst hv
  have hi : ∀ x, (if w = true then some { type := SymType.labelRef, name := name, region := argRegion r t.region, id := id : SymInfo } else none) = some x → x.type ≠ .label := by
    intro x hx; cases w <;> cases hx; simp
  cases w with
  | true =>
    obtain ⟨⟨hreach, h2⟩, he⟩ := andThen_ok (emitAddr_step t k z _ _ _ s1 hi) (markRef_ext _ _ _ _ _ _) h
    rw [he]
    rw [hc2] at h2
    exact ⟨rfl, hreach, by simpa using (hc1.trans h2).trans (markRef_step s.writeAddr k z name id _)⟩
  | false =>
    obtain ⟨⟨hreach, h2⟩, he⟩ := andThen_ok (emitAddr_step t k z _ _ _ s1 hi) (.refl _) h
    rw [he]
    rw [hc2] at h2
    exact ⟨rfl, hreach, by simpa using hc1.trans h2⟩

/-! ## References -/

/-- A new reference, with new bytes, that is either complete or noted in the state. -/
theorem Core.addRef {s s' : Asm} (c : Core (view s.log) s) (n : List (Short × Byte)) (r : Ref) (hn : n.map (·.1) = r.cells)
    (st : Step s s' n r.cells [r] []) (h : (emitted s'.log).Nodup) (hr : Resolved (n ++ written s.log) (labels s.log) r) : Core (view s'.log) s' := by
  have hv := st.view
  have he : emitted s'.log = r.cells ++ emitted s.log := congrArg View.emitted hv
  rw [he, ← hn] at h
  have c' : Core _ s := Core.emits (w := written s.log) (e := emitted s.log) (rs := Spec.refs s.log) (ls := labels s.log) c n h
  rw [hv]
  have c'' := c'.frame st.symtab st.names st.lambdas (by rw [st.atLabels]; exact fun _ h => h)
  exact {
    refs := by
      intro q hq
      rcases List.mem_append.1 hq with hq | hq
      · rw [List.mem_singleton] at hq; subst hq; exact .inl hr
      · exact c''.refs q hq
    fwd := fun a b d f ha hb g hg => List.mem_append_right _ (c''.fwd a b d f ha hb g hg)
    lam := fun f hf => List.mem_append_right _ (c''.lam f hf)
    cells := by
      simp only [List.flatMap_append, List.flatMap_singleton]
      exact List.Sublist.append_left c.cells _
    labs := c''.labs
    ats := c''.ats
    names := c''.names
    uniq := c''.uniq }

/-- The effect of filling in references on those that have been written. -/
theorem patchAll_step (name : Str) (id l : Short) (fs : List FRef) (s s0 : Asm) (c : Core (view s0.log) s0) (h : (emitted s0.log).Nodup)
    (hrefs : Spec.refs s.log = Spec.refs s0.log) (hf : ∀ f ∈ fs, refOfF (some name) id f ∈ Spec.refs s0.log)
    (hok : (patchAll name id l fs s).success = true) :
    ∃ n, Step s (patchAll name id l fs s) n [] [] [] ∧ ∀ r ∈ Spec.refs s0.log,
      (r ∈ fs.map (refOfF (some name) id) → InReach r.kind r.size r.addr l ∧ HoldsNumber (img (n ++ written s.log)) r.addr r.size (refValue r.kind r.addr l)) ∧
      (r ∉ fs.map (refOfF (some name) id) → ∀ a ∈ r.cells, a ∉ n.map (·.1)) := by
  induction fs generalizing s with
  | nil => exact ⟨[], .refl s, fun r _ => ⟨fun h => (by cases h), fun _ a _ h => (by cases h)⟩⟩
  | cons f fs ih =>
    rw [patchAll] at hok ⊢
    have h1 := emitBackwardRef_step f.token f.kind f.size (some name) id l false false { s with writeAddr := f.addr } ((patchAll_ext _ _ _ _ _).ok hok)
    generalize emitBackwardRef f.token f.kind f.size (some name) id l false false { s with writeAddr := f.addr } = p at hok h1
    obtain ⟨b, s1⟩ := p
    obtain ⟨_, hreach, h1⟩ := h1
    dsimp only at hok h1 hreach ⊢
    have st1 := (Step.setWriteAddr f.addr s).trans h1
    simp only [List.append_nil, Bool.false_eq_true, if_false] at st1
    obtain ⟨n, st, hn⟩ := ih s1 (by have := congrArg View.refs st1.view; exact this.trans hrefs) (fun g hg => hf g (by simp [hg])) hok
    refine ⟨n ++ numberAt f.addr f.size (BitVec.ofInt 16 (refValue f.kind f.addr l)), by simpa using st1.trans st, ?_⟩
    have hw : written s1.log = numberAt f.addr f.size (BitVec.ofInt 16 (refValue f.kind f.addr l)) ++ written s.log := congrArg View.written st1.view
    intro r hr
    have hr' := hn r hr
    rw [hw, ← List.append_assoc] at hr'
    by_cases hm : r ∈ fs.map (refOfF (some name) id)
    · refine ⟨fun _ => hr'.1 hm, fun hno => absurd (by rw [List.map_cons]; exact List.mem_cons_of_mem _ hm) hno⟩
    · constructor
      · intro hin
        rw [List.map_cons, List.mem_cons] at hin
        obtain rfl : r = refOfF (some name) id f := hin.resolve_right hm
        rw [List.append_assoc]
        refine ⟨hreach, HoldsNumber.congr (fun a ha => img_append_of_not_mem _ _ _ (hr'.2 hm a ha)) ?_⟩
        exact numberAt_holds f.addr f.size _ _
      · intro hno a ha
        rw [List.map_append, List.mem_append, numberAt_addrs]
        rintro (hn | hn)
        · exact hr'.2 hm a ha hn
        · refine c.cells_disjoint h hr (hf f (by simp)) ?_ ha hn
          rintro rfl
          exact hno (by simp)

/-- What is kept from one state to the next. -/
def Keeps (s s' : Asm) : Prop :=
  Ext s s' ∧ (s.success = true → s'.success = true → (emitted s'.log).Nodup → Core (view s.log) s → Core (view s'.log) s')

theorem emitted_append (a b : List Event) : emitted (a ++ b) = emitted a ++ emitted b := by simp [emitted]

theorem Ext.nodup {s s' : Asm} (h : Ext s s') (hn : (emitted s'.log).Nodup) : (emitted s.log).Nodup := by
  obtain ⟨new, he, _⟩ := h
  rw [he, emitted_append] at hn
  exact (List.nodup_append.1 hn).2.1

theorem Core.step {s s' : Asm} (c : Core (view s.log) s) (st : Step s s' [] [] [] []) : Core (view s'.log) s' := by
  rw [st.view]
  exact c.frame st.symtab st.names st.lambdas (by rw [st.atLabels]; exact fun _ h => h)

theorem findOrCreate_keeps (t : Token) (name : Str) (s : Asm) : Keeps s (findOrCreate t name s).2 := by
  refine ⟨ext_atoms.findOrCreate _ _ _, fun hs hs' _ c => ?_⟩
  revert hs'
  unfold findOrCreate
  have fail : ∀ m : String, (error m t.region s).2.success = true → Core (view (error m t.region s).2.log) (error m t.region s).2 := fun m h => by cases h
  split
  · exact fail _
  · split
    · exact fail _
    · split
      · exact fail _
      · split
        · exact fail _
        · split
          · exact fun _ => c
          · rename_i hnone
            exact fun _ => c.setOther _ _ (fun m hm => (by rw [hnone] at hm; cases hm)) ⟨fun _ _ h => (by cases h), fun _ _ h => (by cases h)⟩ _
              ⟨List.mem_cons_self, fun x hx => List.mem_cons_of_mem _ hx⟩

theorem emitForwardRef_keeps (t : Token) (k : RefKind) (z : RefSize) (name : Str) (n : Node) (r : Bool) (s : Asm) (hn : s.symtab name = some n)
    (hf : isForward n.entry) : Keeps s (emitForwardRef t k z name n r s).2 := by
  refine ⟨ext_atoms.forward t k z name n r s hn hf, fun hs hs' hd c => ?_⟩
  unfold emitForwardRef addForwardRef at *
  dsimp only at *
  -- the node of the symbol just before the placeholder is written
  have hfo : ∀ f ∈ (forwardOf n.entry (s.numLabels + 1)).2, refOfF (some name) (forwardOf n.entry (s.numLabels + 1)).1 f ∈ Spec.refs s.log := by
    cases he : n.entry with
    | forward id fs => exact c.fwd name n id fs hn he
    | unknown => simp [forwardOf]
    | label a b => rw [he] at hf; cases hf
    | «macro» a b d => rw [he] at hf; cases hf
  have hpend : ∀ nm m id fs f, s.symtab nm = some m → m.entry = .forward id fs → f ∈ fs → nm = name →
      id = (forwardOf n.entry (s.numLabels + 1)).1 ∧ f ∈ (forwardOf n.entry (s.numLabels + 1)).2 := by
    rintro nm m id fs f hm he hfm rfl
    rw [hn] at hm; cases hm
    rw [he]
    exact ⟨rfl, hfm⟩
  have hlab : ∀ id a, n.entry ≠ .label id a := by
    intro id a he; rw [he] at hf; cases hf
  generalize forwardOf n.entry (s.numLabels + 1) = fo at *
  obtain ⟨id, fs⟩ := fo
  dsimp only at *
  have hwa : (numberLabel n.entry s).writeAddr = s.writeAddr := by unfold numberLabel; split <;> rfl
  have hst0 : Step s (numberLabel n.entry s) [] [] [] [] := by
    unfold numberLabel
    split
    · exact ⟨rfl, rfl, rfl, rfl, rfl⟩
    · exact .refl s
  generalize numberLabel n.entry s = s0 at *
  have hlog : ∀ x : Node, (setNode name x s0).log = s0.log := fun _ => rfl
  obtain ⟨st, he⟩ := andThen_ok (emitPlaceholder_step t k z (some name) id r (setNode name { n with entry := .forward id fs } s0)) (setNode_ext _ _ _) hs'
  rw [he] at hs' hd ⊢
  generalize emitPlaceholder t k z (some name) id r (setNode name { n with entry := .forward id fs } s0) = p at *
  obtain ⟨b, s1⟩ := p
  dsimp only at *
  have hv : view s1.log = ⟨numberAt s.writeAddr z 1 ++ written s.log, cells s.writeAddr z ++ emitted s.log, [⟨s.writeAddr, k, z, some name, id⟩] ++ Spec.refs s.log, [] ++ labels s.log⟩ := by
    have h1 := st.view
    have h2 := hst0.view
    simp only [Asm.view, View.mk.injEq, List.nil_append] at h2
    rw [h1, hlog]
    simp only [h2.1, h2.2.1, h2.2.2.1, h2.2.2.2, setNode, hwa]
  have hd' : ((numberAt s.writeAddr z 1).map (·.1) ++ emitted s.log).Nodup := by
    rw [numberAt_addrs]
    have : emitted s1.log = cells s.writeAddr z ++ emitted s.log := congrArg View.emitted hv
    rw [← this]; exact hd
  have c1 := Core.emits (w := written s.log) (e := emitted s.log) (rs := Spec.refs s.log) (ls := labels s.log) c _ hd'
  have hsym : ∀ key, s1.symtab key = if key = name then some { n with entry := .forward id fs } else s.symtab key := by
    intro key; rw [st.symtab]; simp only [setNode, hst0.symtab]
  have hlam : s1.lambdas = s.lambdas := st.lambdas.trans hst0.lambdas
  have hat : s1.atLabels = s.atLabels := st.atLabels.trans hst0.atLabels
  have hnm : s1.names = s.names := st.names.trans hst0.names
  show Core (view s1.log) _
  rw [hv]
  set fnew : FRef := { token := t, addr := s0.writeAddr, kind := k, size := z } with hfnew
  have hsym' : ∀ key, (setNode name { n with entry := .forward id (fnew :: fs) } s1).symtab key =
      if key = name then some { n with entry := .forward id (fnew :: fs) } else s.symtab key := by
    intro key
    simp only [setNode, hsym]
    by_cases hk : key = name <;> simp [hk]
  exact {
    refs := by
      intro q hq
      rcases List.mem_append.1 hq with hq | hq
      · rw [List.mem_singleton] at hq
        subst hq
        refine .inr (.inl ⟨name, _, id, fnew :: fs, by rw [hsym', if_pos rfl], rfl, fnew, by simp, ?_⟩)
        simp [refOfF, hfnew, hwa]
      · rcases c1.refs q hq with h | h
        · exact .inl h
        · rcases h with ⟨nm, m, id', fs', hm, he, f, hfm, rfl⟩ | ⟨f, hfm, rfl⟩
          · right; left
            by_cases hk : nm = name
            · obtain ⟨rfl, hfm'⟩ := hpend nm m id' fs' f hm he hfm hk
              subst hk
              exact ⟨nm, _, id', fnew :: fs, by rw [hsym', if_pos rfl], rfl, f, by simp [hfm'], rfl⟩
            · exact ⟨nm, m, id', fs', by rw [hsym', if_neg hk]; exact hm, he, f, hfm, rfl⟩
          · right; right
            exact ⟨f, by show f ∈ s1.lambdas; rw [hlam]; exact hfm, rfl⟩
    fwd := by
      intro nm m id' fs' hm he f hfm
      rw [hsym'] at hm
      split at hm
      · cases hm; cases he
        subst nm
        rcases List.mem_cons.1 hfm with rfl | hfm
        · apply List.mem_append_left
          simp [refOfF, hfnew, hwa]
        · exact List.mem_append_right _ (hfo f hfm)
      · exact List.mem_append_right _ (c.fwd nm m id' fs' hm he f hfm)
    lam := by
      intro f hfm
      exact List.mem_append_right _ (c.lam f (by rw [← hlam]; exact hfm))
    cells := by
      simp only [List.flatMap_append, List.flatMap_singleton]
      exact List.Sublist.append_left c.cells _
    labs := by
      intro nm m id' a hm he
      rw [hsym'] at hm
      split at hm
      · cases hm; cases he
      · exact c.labs nm m id' a hm he
    ats := by
      intro l hl
      exact c.ats l (by rw [← hat]; exact hl)
    names := by
      intro nm m hm
      rw [hsym'] at hm
      show nm ∈ s1.names
      rw [hnm]
      split at hm
      · subst nm; exact c.names name n hn
      · exact c.names nm m hm
    uniq := by
      intro a i hi hg
      obtain ⟨nm, m, h1, h2, h3⟩ := c.uniq a i hi hg
      refine ⟨nm, m, h1, ?_, h3⟩
      rw [hsym', if_neg]
      · exact h2
      · rintro rfl
        rw [hn] at h2; cases h2
        exact hlab _ _ h3 }

theorem emitLambdaRef_keeps (t : Token) (k : RefKind) (z : RefSize) (r : Bool) (s : Asm) : Keeps s (emitLambdaRef t k z r s).2 := by
  refine ⟨ext_atoms.lambda t k z r s, fun hs hs' hd c => ?_⟩
  unfold emitLambdaRef at *
  dsimp only at *
  obtain ⟨st, he⟩ := andThen_ok (emitPlaceholder_step t k z none (s.numLabels + 1) r { s with numLabels := s.numLabels + 1 }) (.same rfl rfl) hs'
  rw [he] at hs' hd ⊢
  generalize emitPlaceholder t k z none (s.numLabels + 1) r { s with numLabels := s.numLabels + 1 } = p at *
  obtain ⟨b, s1⟩ := p
  dsimp only at *
  have hv := st.view
  dsimp only at hv
  have hd' : ((numberAt s.writeAddr z 1).map (·.1) ++ emitted s.log).Nodup := by
    rw [numberAt_addrs]
    have : emitted s1.log = cells s.writeAddr z ++ emitted s.log := congrArg View.emitted hv
    rw [← this]; exact hd
  have c1 := Core.emits (w := written s.log) (e := emitted s.log) (rs := Spec.refs s.log) (ls := labels s.log) c _ hd'
  have hsym : s1.symtab = s.symtab := st.symtab
  have hlam : s1.lambdas = s.lambdas := st.lambdas
  have hat : s1.atLabels = s.atLabels := st.atLabels
  have hnm : s1.names = s.names := st.names
  rw [hv]
  exact {
    refs := by
      intro q hq
      rcases List.mem_append.1 hq with hq | hq
      · rw [List.mem_singleton] at hq
        subst hq
        exact .inr (.inr ⟨_, List.mem_cons_self, rfl⟩)
      · refine (c1.refs q hq).imp id ?_
        rintro (h | ⟨f, hf, rfl⟩)
        · left; dsimp only; rw [hsym]; exact h
        · exact .inr ⟨f, List.mem_cons_of_mem _ (by rw [hlam]; exact hf), rfl⟩
    fwd := by
      dsimp only; rw [hsym]
      exact fun a b d f ha hb g hg => List.mem_append_right _ (c.fwd a b d f ha hb g hg)
    lam := by
      intro f hf
      rcases List.mem_cons.1 hf with rfl | hf
      · exact List.mem_append_left _ (by simp [refOfF])
      · exact List.mem_append_right _ (c.lam f (by rw [← hlam]; exact hf))
    cells := by
      simp only [List.flatMap_append, List.flatMap_singleton]
      exact List.Sublist.append_left c.cells _
    labs := by dsimp only; rw [hsym]; exact c.labs
    ats := by dsimp only; rw [hat]; exact c.ats
    names := by dsimp only; rw [hsym, hnm]; exact c.names
    uniq := by dsimp only; rw [hsym]; exact c.uniq }

/-- A reference to a label that exists. -/
theorem emitBackwardRef_keeps (t : Token) (k : RefKind) (z : RefSize) (name : Option Str) (id l : Short) (r : Bool) (s : Asm) (i : SymInfo)
    (hl : Core (view s.log) s → (l, i) ∈ labels s.log ∧ Names ⟨s.writeAddr, k, z, name, id⟩ i) : Keeps s (emitBackwardRef t k z name id l true r s).2 := by
  refine ⟨emitBackwardRef_ext _ _ _ _ _ _ _ _ _, fun hs hs' hd c => ?_⟩
  obtain ⟨_, hreach, st⟩ := emitBackwardRef_step t k z name id l true r s hs'
  simp only [if_true] at st
  obtain ⟨h1, h2⟩ := hl c
  exact c.addRef _ _ (numberAt_addrs _ _ _) st hd ⟨l, i, h1, h2, hreach, numberAt_holds _ _ _ _⟩

theorem Keeps.trans {a b c : Asm} (h : Keeps a b) (h' : Keeps b c) : Keeps a c := by
  refine ⟨h.1.trans h'.1, fun hs hs' hd hc => ?_⟩
  have hb := h'.1.ok hs'
  exact h'.2 hb hs' hd (h.2 hs hb (h'.1.nodup hd) hc)

theorem Keeps.andThen {s : Asm} {r : Bool × Asm} {f : Asm → Bool × Asm} (h : Keeps s r.2) (hf : ∀ s', Keeps s' (f s').2) : Keeps s (andThen r f).2 := by
  unfold Asm.andThen
  split
  · exact h.trans (hf _)
  · exact h

theorem Keeps.frame {s s' : Asm} (h : Frame s s') : Keeps s s' := by
  refine ⟨.same h.log h.success, fun _ _ _ c => ?_⟩
  rw [h.log]
  exact c.frame h.symtab h.names h.lambdas h.atLabels

/-- A label that is announced and cannot be found by name. -/
theorem Core.addLabel {v : View} {s : Asm} (c : Core v s) (a : Short) (i : SymInfo) (hg : i.generated = true) : Core { v with labels := (a, i) :: v.labels } s where
  refs r hr := (c.refs r hr).imp (fun ⟨l, j, h1, h2⟩ => ⟨l, j, List.mem_cons_of_mem _ h1, h2⟩) id
  fwd := c.fwd
  lam := c.lam
  cells := c.cells
  labs nm n id a hm he := by
    obtain ⟨j, h1, h2⟩ := c.labs nm n id a hm he
    exact ⟨j, List.mem_cons_of_mem _ h1, h2⟩
  ats l hl := by
    obtain ⟨j, h1, h2⟩ := c.ats l hl
    exact ⟨j, List.mem_cons_of_mem _ h1, h2⟩
  names := c.names
  uniq b j hj hn := by
    rcases List.mem_cons.1 hj with h | h
    · cases h; rw [hg] at hn; cases hn
    · exact c.uniq b j h hn

theorem processAtLabel_keeps (t : Token) (s : Asm) : Keeps s (processAtLabel t s) := by
  refine ⟨ext_atoms.atLabel t s, fun _ _ _ c => ?_⟩
  have c1 := c.addLabel s.writeAddr { type := .label, name := some (lambdaName (s.numLabels + 1)), generated := true, region := t.region, id := s.numLabels + 1 } rfl
  have hv : view (processAtLabel t s).log = { view s.log with labels := (s.writeAddr, { type := .label, name := some (lambdaName (s.numLabels + 1)), generated := true, region := t.region, id := s.numLabels + 1 }) :: labels s.log } := rfl
  rw [hv]
  exact { c1 with
    refs := c1.refs
    ats := by
      intro l hl
      rcases List.mem_cons.1 hl with rfl | hl
      · exact ⟨_, List.mem_cons_self, rfl⟩
      · exact c1.ats l hl }

theorem placeLabel_keeps (t : Token) (name : Str) (n : Node) (id : Short) (fs : List FRef) (s : Asm) (hs : s.success = true) (hs' : (placeLabel t name n id fs s).2.success = true)
    (hd : (emitted (placeLabel t name n id fs s).2.log).Nodup) (c : Core (view s.log) s) (hn : s.symtab name = some n)
    (hlab : ∀ id a, n.entry ≠ .label id a) (hfs : ∀ id' fs', n.entry = .forward id' fs' → id' = id ∧ fs' = fs) (hin : ∀ f ∈ fs, refOfF (some name) id f ∈ Spec.refs s.log) :
    Core (view (placeLabel t name n id fs s).2.log) (placeLabel t name n id fs s).2 := by
  have hds := (placeLabel_ext t name n id fs s).nodup hd
  unfold placeLabel at *
  dsimp only at *
  have hs1 : (patchAll name id s.writeAddr fs (setNode name { n with entry := .label id s.writeAddr } s)).success = true := hs'
  obtain ⟨nw, st, hw⟩ := patchAll_step name id s.writeAddr fs (setNode name { n with entry := .label id s.writeAddr } s) s c hds rfl hin hs1
  generalize patchAll name id s.writeAddr fs (setNode name { n with entry := .label id s.writeAddr } s) = s1 at *
  have hsym : s1.symtab = _ := st.symtab
  have hlam : s1.lambdas = s.lambdas := st.lambdas
  have hat : s1.atLabels = s.atLabels := st.atLabels
  have hnm : s1.names = s.names := st.names
  have hv1 := st.view
  set info : SymInfo := { type := .label, name := some name, region := t.region, id := id } with hinfo
  set n2 : Node := { n with entry := .label id s.writeAddr, referenced := !fs.isEmpty } with hn2
  set s2 : Asm := putSymbol s.writeAddr info { setNode name n2 s1 with writeAddr := s.writeAddr } with hs2
  have hv : view s2.log = ⟨nw ++ written s.log, emitted s.log, Spec.refs s.log, (s.writeAddr, info) :: labels s.log⟩ := by
    simp only [Asm.view, View.mk.injEq, List.nil_append] at hv1
    have h1 := (putLabel_step s.writeAddr info { setNode name n2 s1 with writeAddr := s.writeAddr } rfl).view
    simp only [Asm.view, List.nil_append, View.mk.injEq] at h1
    simp only [Asm.view, View.mk.injEq]
    exact ⟨h1.1.trans hv1.1, h1.2.1.trans hv1.2.1, h1.2.2.1.trans hv1.2.2.1, by
      rw [h1.2.2.2, List.singleton_append]; congr 1; exact hv1.2.2.2⟩
  have hsym2 : ∀ key, s2.symtab key = if key = name then some n2 else s.symtab key := by
    intro key
    show (setNode name n2 s1).symtab key = _
    simp only [setNode, hsym]
    by_cases hk : key = name <;> simp [hk]
  rw [hv]
  exact {
    refs := by
      intro r hr
      obtain ⟨h1, h2⟩ := hw r hr
      by_cases hm : r ∈ fs.map (refOfF (some name) id)
      · left
        refine ⟨s.writeAddr, info, List.mem_cons_self, ?_, (h1 hm).1, (h1 hm).2⟩
        obtain ⟨f, _, rfl⟩ := List.mem_map.1 hm
        refine ⟨rfl, ?_⟩
        intro nm hnm
        cases hnm
        exact ⟨rfl, rfl⟩
      · rcases c.refs r hr with hres | hp
        · left
          exact hres.mono nw _ (fun x hx => List.mem_cons_of_mem _ hx) (h2 hm)
        · right
          rcases hp with ⟨nm, m, id', fs', hnm, he, f, hf, rfl⟩ | ⟨f, hf, rfl⟩
          · by_cases hk : nm = name
            · subst hk
              rw [hn] at hnm; cases hnm
              obtain ⟨rfl, rfl⟩ := hfs _ _ he
              exact absurd (List.mem_map_of_mem hf) hm
            · exact .inl ⟨nm, m, id', fs', by rw [hsym2, if_neg hk]; exact hnm, he, f, hf, rfl⟩
          · exact .inr ⟨f, by show f ∈ s1.lambdas; rw [hlam]; exact hf, rfl⟩
    fwd := by
      intro nm m id' fs' hm he
      rw [hsym2] at hm
      split at hm
      · cases hm; cases he
      · exact c.fwd nm m id' fs' hm he
    lam := by
      intro f hf
      exact c.lam f (by rw [← hlam]; exact hf)
    cells := c.cells
    labs := by
      intro nm m id' a hm he
      rw [hsym2] at hm
      split at hm
      · subst nm; cases hm; cases he
        exact ⟨info, List.mem_cons_self, rfl, rfl, rfl⟩
      · obtain ⟨j, h1, h2⟩ := c.labs nm m id' a hm he
        exact ⟨j, List.mem_cons_of_mem _ h1, h2⟩
    ats := by
      intro l hl
      obtain ⟨j, h1, h2⟩ := c.ats l (by rw [← hat]; exact hl)
      exact ⟨j, List.mem_cons_of_mem _ h1, h2⟩
    names := by
      intro nm m hm
      rw [hsym2] at hm
      show nm ∈ s1.names
      rw [hnm]
      split at hm
      · subst nm; exact c.names name n hn
      · exact c.names nm m hm
    uniq := by
      intro a j hj hg
      rcases List.mem_cons.1 hj with h | h
      · cases h
        exact ⟨name, n2, rfl, by rw [hsym2, if_pos rfl], rfl⟩
      · obtain ⟨nm, m, h1, h2, h3⟩ := c.uniq a j h hg
        refine ⟨nm, m, h1, ?_, h3⟩
        rw [hsym2, if_neg]
        · exact h2
        · rintro rfl
          rw [hn] at h2; cases h2
          exact hlab _ _ h3 }

theorem defineLabel_keeps (t : Token) (name : Str) (n : Node) (s : Asm) (hn : s.symtab name = some n) : Keeps s (defineLabel t name n s).2 := by
  refine ⟨ext_atoms.define t name n s hn, ?_⟩
  unfold defineLabel
  split
  · rename_i he
    intro hs hs' hd c
    exact placeLabel_keeps t name n _ [] { s with numLabels := s.numLabels + 1 } hs hs' hd
      (c.frame rfl rfl rfl fun _ h => h) hn (by simp [he]) (by simp [he]) (by simp)
  · rename_i id fs he
    intro hs hs' hd c
    refine placeLabel_keeps t name n id fs s hs hs' hd c hn (by simp [he]) ?_ (c.fwd name n id fs hn he)
    intro id' fs' h
    rw [he] at h; cases h
    exact ⟨rfl, rfl⟩
  · intro _ h; cases h
  · intro _ h; cases h

theorem processLambdaClose_keeps (t : Token) (s : Asm) : Keeps s (processLambdaClose t s).2 := by
  refine ⟨ext_atoms.close t s, ?_⟩
  intro hs hs' hd c
  have hds := (ext_atoms.close t s).nodup hd
  unfold processLambdaClose at *
  split
  · rename_i h; rw [h] at hs'; cases hs'
  · rename_i f fs hl
    rw [hl] at hs' hd
    dsimp only at *
    have hv := calculateAddr_value f.token f.kind f.addr s.writeAddr s
    have hc := calculateAddr_step f.token f.kind f.addr s.writeAddr s
    generalize calculateAddr f.token f.kind f.addr s.writeAddr s = p at *
    obtain ⟨v, s1⟩ := p
    dsimp only at *
    subst hv
    obtain ⟨⟨hreach, st2⟩, he⟩ := andThen_ok (emitAddr_step f.token f.kind f.size _ none true { s1 with writeAddr := f.addr } (by simp)) (Ext.event _ rfl rfl rfl rfl) hs'
    rw [he] at hs' hd ⊢
    have st := (hc.1.trans (Step.setWriteAddr f.addr s1)).trans st2
    generalize emitAddr f.token f.kind f.size (refValue f.kind f.addr s.writeAddr) none true { s1 with writeAddr := f.addr } = q at *
    obtain ⟨b, s2⟩ := q
    simp only [List.append_nil, List.nil_append, if_true] at st
    dsimp only [putSymbol] at *
    set info : SymInfo := { type := .label, name := some (lambdaName f.lambdaId), generated := true, region := t.region, id := f.labelId } with hinfo
    have hsym : s2.symtab = s.symtab := st.symtab
    have hlam : s2.lambdas = s.lambdas := st.lambdas
    have hat : s2.atLabels = s.atLabels := st.atLabels
    have hnm : s2.names = s.names := st.names
    have hvw : view (.sym s.writeAddr info :: s2.log) =
        ⟨numberAt f.addr f.size (BitVec.ofInt 16 (refValue f.kind f.addr s.writeAddr)) ++ written s.log, emitted s.log, Spec.refs s.log, (s.writeAddr, info) :: labels s.log⟩ := by
      have h0 := st.view
      have h1 := (putLabel_step s.writeAddr info s2 rfl).view
      simp only [Asm.view, List.nil_append, View.mk.injEq, putSymbol] at h0 h1
      simp only [Asm.view, View.mk.injEq]
      exact ⟨h1.1.trans h0.1, h1.2.1.trans h0.2.1, h1.2.2.1.trans h0.2.2.1, by
        rw [h1.2.2.2, List.singleton_append]; congr 1; exact h0.2.2.2⟩
    rw [hvw]
    have hfr : refOfF none f.labelId f ∈ Spec.refs s.log := c.lam f (by rw [hl]; simp)
    exact {
      refs := by
        intro r hr
        by_cases hm : r = refOfF none f.labelId f
        · subst hm
          exact .inl ⟨s.writeAddr, info, List.mem_cons_self, ⟨rfl, fun nm h => (by cases h)⟩, hreach, numberAt_holds f.addr f.size _ _⟩
        · rcases c.refs r hr with hres | hp
          · left
            refine hres.mono _ _ (fun x hx => List.mem_cons_of_mem _ hx) ?_
            intro a ha hn
            rw [numberAt_addrs] at hn
            exact c.cells_disjoint hds hr hfr hm ha hn
          · right
            rcases hp with h | ⟨g, hg, rfl⟩
            · left; dsimp only; rw [hsym]; exact h
            · right
              rw [hl] at hg
              rcases List.mem_cons.1 hg with rfl | hg
              · exact absurd rfl hm
              · exact ⟨g, hg, rfl⟩
      fwd := by dsimp only; rw [hsym]; exact c.fwd
      lam := fun g hg => c.lam g (by rw [hl]; exact List.mem_cons_of_mem _ hg)
      cells := c.cells
      labs := by
        dsimp only; rw [hsym]
        intro nm m id' a hm he
        obtain ⟨j, h1, h2⟩ := c.labs nm m id' a hm he
        exact ⟨j, List.mem_cons_of_mem _ h1, h2⟩
      ats := by
        dsimp only; rw [hat]
        intro l hl
        obtain ⟨j, h1, h2⟩ := c.ats l hl
        exact ⟨j, List.mem_cons_of_mem _ h1, h2⟩
      names := by dsimp only; rw [hsym, hnm]; exact c.names
      uniq := by
        dsimp only; rw [hsym]
        intro a j hj hg
        rcases List.mem_cons.1 hj with h | h
        · cases h; cases hg
        · exact c.uniq a j h hg }

theorem emit_keeps (t : Token) (b : Byte) (s : Asm) : Keeps s (emit t b false s).2 := by
  refine ⟨emit_ext _ _ _ _, fun hs hs' hd c => ?_⟩
  obtain ⟨_, _, st⟩ := emit_step t b false s hs'
  simp only [Bool.false_eq_true, if_false] at st
  have he : emitted (emit t b false s).2.log = [s.writeAddr] ++ emitted s.log := congrArg View.emitted st.view
  rw [he] at hd
  rw [st.view]
  exact (Core.emits (w := written s.log) (e := emitted s.log) (rs := Spec.refs s.log) (ls := labels s.log) c [(s.writeAddr, b)] hd).frame st.symtab st.names st.lambdas
    (by rw [st.atLabels]; exact fun _ h => h)

theorem emit2_keeps (t : Token) (x : Short) (s : Asm) : Keeps s (emit2 t x false s).2 :=
  Keeps.andThen (emit_keeps _ _ _) fun _ => Keeps.andThen (emit_keeps _ _ _) fun s => .frame (Frame.rfl' s)

theorem putSymbol_keeps (a : Short) (i : SymInfo) (s : Asm) (hi : i.type ≠ .label) : Keeps s (putSymbol a i s) :=
  ⟨Ext.event _ rfl rfl rfl rfl, fun _ _ _ c => c.step ⟨(putSymbol_step a i s hi).view, rfl, rfl, rfl, rfl⟩⟩

theorem keeps_atoms : Atoms Keeps where
  trans h h' := h.trans h'
  frame h := .frame h
  error m r s := ⟨error_ext _ _ _, fun _ h => (by cases h)⟩
  event e s h := by
    refine ⟨event_ext e s h, fun _ _ _ c => ?_⟩
    refine c.step ⟨?_, rfl, rfl, rfl, rfl⟩
    cases e with
    | sym a i => exact (putSymbol_step a i s h.1).view
    | warning => rfl
    | fopen => rfl
    | fclose => rfl
    | rom => cases h
    | error => cases h
    | ref => cases h
  opcode _ _ _ _ := Keeps.andThen (emit_keeps _ _ _) fun _ => putSymbol_keeps _ _ _ (by simp)
  byte _ _ _ _ := Keeps.andThen (emit_keeps _ _ _) fun _ => putSymbol_keeps _ _ _ (by simp)
  short _ _ _ _ := Keeps.andThen (emit2_keeps _ _ _) fun _ => (putSymbol_keeps _ _ _ (by simp)).trans (putSymbol_keeps _ _ _ (by simp))
  text _ _ _ _ h := Keeps.andThen (emit_keeps _ _ _) fun _ => putSymbol_keeps _ _ _ (by simp [h])
  findOrCreate t n s := findOrCreate_keeps t n s
  referenced name n s hn := ⟨setNode_ext _ _ _, fun _ _ _ c => c.setSame name _ n hn rfl⟩
  setMacro name n body id x s hn he := by
    refine ⟨setNode_ext _ _ _, fun _ _ _ c => ?_⟩
    refine Core.setOther c name _ ?_ ⟨by simp, by simp⟩ s.names ⟨c.names name n hn, fun _ h => h⟩
    intro m hm
    rw [hn] at hm; cases hm
    rcases he with he | he
    · rw [he]; exact ⟨by simp, by simp⟩
    · constructor
      · intro a b h; rw [h] at he; cases he
      · intro a b h; rw [h] at he; cases he
  forward t k z name n r s hn hf := emitForwardRef_keeps t k z name n r s hn hf
  lambda t k z r s := emitLambdaRef_keeps t k z r s
  backward t k z name id addr r s n hn he := by
    refine ⟨emitBackwardRef_ext _ _ _ _ _ _ _ _ _, fun hs hs' hd c => ?_⟩
    obtain ⟨i, h1, h2, h3, h4⟩ := c.labs name n id addr hn he
    exact (emitBackwardRef_keeps t k z (some name) id addr r s i fun _ => ⟨h1, h2, fun nm h => by cases h; exact ⟨h3, h4⟩⟩).2 hs hs' hd c
  atRef t k z r s l ls hl := by
    refine ⟨ext_atoms.atRef t k z r s l ls hl, fun hs hs' hd c => ?_⟩
    obtain ⟨i, h1, h2⟩ := c.ats l (by rw [hl]; simp)
    exact (emitBackwardRef_keeps t k z none l.labelId l.addr r { s with atLabels := ls } i fun _ => ⟨h1, h2, fun nm h => (by cases h)⟩).2 hs hs' hd
      (c.frame rfl rfl rfl fun x hx => by rw [hl]; exact List.mem_cons_of_mem _ hx)
  atLabel t s := processAtLabel_keeps t s
  define t name n s hn := defineLabel_keeps t name n s hn
  close t s := processLambdaClose_keeps t s

theorem warning_keeps (m : String) (r : Region) (s : Asm) : Keeps s (warning m r s) :=
  ⟨warning_ext m r s, fun _ _ _ c => c.step ⟨rfl, rfl, rfl, rfl, rfl⟩⟩

theorem initial_core : Core (view initial.log) initial where
  refs r hr := by cases hr
  fwd _ _ _ _ h := by cases h
  lam f hf := by cases hf
  cells := List.Sublist.refl _
  labs _ _ _ _ h := by cases h
  ats l hl := by cases hl
  names _ _ h := by cases h
  uniq a i h := by cases h

/-! ## The end of an assembly -/

theorem reportLambdas_tables (l : List FRef) (s : Asm) : (reportLambdas l s).atLabels = s.atLabels ∧ (reportLambdas l s).names = s.names := by
  induction l generalizing s with
  | nil => exact ⟨rfl, rfl⟩
  | cons f l ih => rw [reportLambdas]; exact ih _

theorem reportAtLabels_tables (l : List FRef) (s : Asm) : (reportAtLabels l s).names = s.names ∧ (reportAtLabels l s).symtab = s.symtab := by
  induction l generalizing s with
  | nil => exact ⟨rfl, rfl⟩
  | cons f l ih => rw [reportAtLabels]; exact ih _

/-- A successful assembly ends with the final reports. -/
theorem assemble_end {R : Asm → Asm → Prop} (C : Closed R) (files : Files) (fuel : Nat) (filename : Str) (s : Asm) (h : assemble files fuel filename = some (true, s)) :
    ∃ s0, R initial s0 ∧ s = reportSymbols s0.names.reverse (reportAtLabels s0.atLabels (reportLambdas s0.lambdas s0)) ∧ s.success = true := by
  unfold assemble at h
  dsimp only at h
  have hrec := processUnit_good C files fuel MAX_DEPTH
  split at h
  · cases h
  · rename_i s1 heq
    simp only [Option.some.injEq, Prod.mk.injEq] at h
    have := (processFile_good C files _ hrec _ _ _ heq).2 rfl
    rw [h.1] at this; cases this
  · rename_i s1 heq
    have h1 := (processFile_good C files _ hrec _ _ _ heq).1
    split at h
    · cases h
    · rename_i b s2 heq2
      simp only [Option.some.injEq, Prod.mk.injEq] at h
      obtain ⟨hok, rfl⟩ := h
      unfold resolve at heq2
      split at heq2
      · cases heq2
      · rename_i s3 heq3
        have := (deferredLoop_good C files _ hrec _ _ _ _ heq3).2 rfl
        simp only [Option.some.injEq, Prod.mk.injEq] at heq2
        rw [← heq2.2, this] at hok; cases hok
      · rename_i s3 heq3
        have h3 := (deferredLoop_good C files _ hrec _ _ _ _ heq3).1
        simp only [Option.some.injEq, Prod.mk.injEq] at heq2
        refine ⟨s3, C.trans h1 h3, ?_, hok⟩
        rw [← heq2.2, (reportAtLabels_tables _ _).1, (reportLambdas_tables _ _).1, (reportLambdas_tables _ _).2]

theorem reportLambdas_lambdas (l : List FRef) (s : Asm) : (reportLambdas l s).lambdas = s.lambdas := by
  induction l generalizing s with
  | nil => rfl
  | cons f l ih => rw [reportLambdas]; exact ih _

theorem reportAtLabels_lambdas (l : List FRef) (s : Asm) : (reportAtLabels l s).lambdas = s.lambdas := by
  induction l generalizing s with
  | nil => rfl
  | cons f l ih => rw [reportAtLabels]; exact ih _

theorem reportRefs_lambdas (l : List FRef) (s : Asm) : (reportRefs l s).lambdas = s.lambdas := by
  induction l generalizing s with
  | nil => rfl
  | cons f l ih => rw [reportRefs]; exact ih _

theorem ite_lambdas {c : Prop} [Decidable c] {m : String} {r : Region} (s : Asm) : (if c then warning m r s else s).lambdas = s.lambdas := by split <;> rfl

theorem reportSymbols_lambdas (ks : List Str) (s : Asm) : (reportSymbols ks s).lambdas = s.lambdas := by
  induction ks generalizing s with
  | nil => rfl
  | cons k ks ih =>
    unfold reportSymbols
    rw [ih]
    split
    · rfl
    · dsimp only
      split
      · exact reportRefs_lambdas _ _
      · rfl
      · exact ite_lambdas s
      · exact ite_lambdas s

theorem reports_lambdas (ks : List Str) (a b : List FRef) (s : Asm) : (reportSymbols ks (reportAtLabels a (reportLambdas b s))).lambdas = s.lambdas := by
  rw [reportSymbols_lambdas, reportAtLabels_lambdas, reportLambdas_lambdas]

/-- A reference that is still waiting is reported. -/
theorem reportRefs_fails (f : FRef) (fs : List FRef) (s : Asm) : (reportRefs (f :: fs) s).success = false := by
  rw [reportRefs]
  exact Bool.eq_false_iff.2 fun h => absurd ((reportRefs_quiet fs _).ext.ok h) (by simp [error])

theorem reportLambdas_fails (f : FRef) (fs : List FRef) (s : Asm) : (reportLambdas (f :: fs) s).success = false := by
  rw [reportLambdas]
  exact Bool.eq_false_iff.2 fun h => absurd ((reportLambdas_quiet fs _).ext.ok h) (by simp [error])

theorem reportSymbols_fails (ks : List Str) (s : Asm) (name : Str) (hm : name ∈ ks) (n : Node) (hn : s.symtab name = some n) (id : Short) (f : FRef) (fs : List FRef)
    (he : n.entry = .forward id fs) (hf : f ∈ fs) : (reportSymbols ks s).success = false := by
  induction ks generalizing s with
  | nil => cases hm
  | cons k ks ih =>
    unfold reportSymbols
    rcases List.mem_cons.1 hm with rfl | hm
    · apply Bool.eq_false_iff.2
      intro h
      have := (reportSymbols_quiet ks _).ext.ok h
      rw [hn] at this
      dsimp only at this
      rw [he] at this
      cases fs with
      | nil => cases hf
      | cons g gs =>
        have h' := reportRefs_fails g gs s
        rw [h'] at this; cases this
    · apply ih _ hm
      rw [show ∀ x : Asm, x.symtab = s.symtab → x.symtab name = some n from fun x hx => by rw [hx, hn]]
      have := (reportSymbols_quiet [k] s).symtab
      unfold reportSymbols at this
      exact this

/-- **C35.** In a program that assembles and does not write any address twice, every reference (forward, backward, to a
lambda or an `@`-label) finally holds the value computed from its own address and the address of its label; that value does
not depend on the order of reference and label. -/
theorem C35_references (files : Files) (fuel : Nat) (filename : Str) (s : Asm) (h : assemble files fuel filename = some (true, s))
    (hd : (emitted s.log).Nodup) (r : Ref) (hr : r ∈ Spec.refs s.log) :
    ∃ l i, (l, i) ∈ labels s.log ∧ Names r i ∧ InReach r.kind r.size r.addr l ∧ HoldsNumber (image s.log) r.addr r.size (refValue r.kind r.addr l) := by
  obtain ⟨s0, ⟨⟨hx, hk⟩, _⟩, rfl, hok⟩ := assemble_end keeps_atoms.closed files fuel filename s h
  have q1 := reportLambdas_quiet s0.lambdas s0
  have q2 := reportAtLabels_quiet s0.atLabels (reportLambdas s0.lambdas s0)
  have q3 := reportSymbols_quiet s0.names.reverse (reportAtLabels s0.atLabels (reportLambdas s0.lambdas s0))
  have q := ((Closing.quiet q1).trans q2).trans q3
  have c0 := hk rfl (q.ext.ok hok) (q.ext.nodup hd) initial_core
  have c1 := (keeps_atoms.closed.closing (reported warning_keeps) q).1.2 (q.ext.ok hok) hok hd c0
  -- what is pending at the end was pending before the reports, and then an error is reported
  rcases c1.refs r hr with h | h
  · exact h
  · exfalso
    have hlam : s0.lambdas = [] := by
      cases hl : s0.lambdas with
      | nil => rfl
      | cons f fs =>
        rw [hl] at q2 q3 hok
        have := q2.ext.ok (q3.ext.ok hok)
        rw [reportLambdas_fails] at this; cases this
    rcases h with ⟨name, n, id, fs, hn, he, f, hf, _⟩ | ⟨f, hf, _⟩
    · rw [q.symtab] at hn
      have hm : name ∈ s0.names.reverse := List.mem_reverse.2 (c0.names name n hn)
      have := reportSymbols_fails _ (reportAtLabels s0.atLabels (reportLambdas s0.lambdas s0)) name hm n (by rw [q2.symtab, q1.symtab]; exact hn) id f fs he hf
      rw [this] at hok; cases hok
    · rw [reports_lambdas, hlam] at hf; cases hf

/-- **C35.** A name is defined at most once: all labels announced under a name that comes from the source have the same
address and number. -/
theorem C35_one_address (files : Files) (fuel : Nat) (filename : Str) (s : Asm) (h : assemble files fuel filename = some (true, s))
    (hd : (emitted s.log).Nodup) (name : Str) (l l' : Short) (i i' : SymInfo) (hi : (l, i) ∈ labels s.log) (hi' : (l', i') ∈ labels s.log)
    (hn : i.name = some name) (hn' : i'.name = some name) (hg : i.generated = false) (hg' : i'.generated = false) : l = l' ∧ i.id = i'.id := by
  obtain ⟨⟨⟨_, hk⟩, _⟩, hs⟩ := assemble_good keeps_atoms.closed (reported warning_keeps) files fuel filename _ h
  have c := hk rfl hs.symm hd initial_core
  obtain ⟨nm, n, h1, h2, h3⟩ := c.uniq l i hi hg
  obtain ⟨nm', n', h1', h2', h3'⟩ := c.uniq l' i' hi' hg'
  rw [hn] at h1; cases h1
  rw [hn'] at h1'; cases h1'
  rw [h2] at h2'; cases h2'
  rw [h3] at h3'
  simp only [Entry.label.injEq] at h3'
  exact ⟨h3'.2, h3'.1⟩

end Buxn.Asm
