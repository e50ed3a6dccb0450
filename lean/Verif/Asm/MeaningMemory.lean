import Verif.Asm.MeaningUnique
/-!
# C78: bytes and references in memory

What the emitting functions of the assembler do to a memory image, in terms of the specification of C78.
-/

namespace Buxn.Asm.Meaning
open Buxn.VM Buxn.Asm Buxn.Asm.Spec

/-! ## What emitting changes -/

/-- All that matters is the same, except for the address and the log. -/
structure Same (s s' : Asm) : Prop where
  readBuf : s'.readBuf = s.readBuf
  scope : s'.scope = s.scope
  atLabels : s'.atLabels = s.atLabels
  includes : s'.includes = s.includes
  deferred : s'.deferred = s.deferred
  symtab : s'.symtab = s.symtab
  names : s'.names = s.names
  lambdas : s'.lambdas = s.lambdas

theorem Same.refl (s : Asm) : Same s s := ⟨rfl, rfl, rfl, rfl, rfl, rfl, rfl, rfl⟩

theorem Same.trans {a b c : Asm} (h : Same a b) (h' : Same b c) : Same a c :=
  ⟨h'.1.trans h.1, h'.2.trans h.2, h'.3.trans h.3, h'.4.trans h.4, h'.5.trans h.5, h'.6.trans h.6, h'.7.trans h.7, h'.8.trans h.8⟩

/-- Bytes are written, some of them at addresses that are new, and the next address is known. -/
structure Emits (s s' : Asm) (n : List (Short × Byte)) (e : List Short) (a : Short) : Prop where
  same : Same s s'
  addr : s'.writeAddr = a
  written : written s'.log = n ++ written s.log
  emitted : emitted s'.log = e ++ emitted s.log

theorem Emits.trans {a b c : Asm} {n n' : List (Short × Byte)} {e e' : List Short} {x y : Short} (h : Emits a b n e x) (h' : Emits b c n' e' y) :
    Emits a c (n' ++ n) (e' ++ e) y where
  same := h.same.trans h'.same
  addr := h'.addr
  written := by rw [h'.written, h.written, List.append_assoc]
  emitted := by rw [h'.emitted, h.emitted, List.append_assoc]

theorem Emits.refl (s : Asm) : Emits s s [] [] s.writeAddr := ⟨.refl s, rfl, rfl, rfl⟩

theorem emit_emits (t : Token) (b : Byte) (p : Bool) (s : Asm) (h : (emit t b p s).2.success = true) :
    (emit t b p s).1 = true ∧ Emits s (emit t b p s).2 [(s.writeAddr, b)] (if p then [] else [s.writeAddr]) (s.writeAddr + 1) := by
  unfold emit at h ⊢
  dsimp only at h ⊢
  split
  · rename_i hz; rw [if_pos hz] at h; cases h
  · refine ⟨rfl, ⟨rfl, rfl, rfl, rfl, rfl, rfl, rfl, rfl⟩, rfl, rfl, ?_⟩
    cases p <;> rfl

theorem putSymbol_emits (a : Short) (i : SymInfo) (s : Asm) : Emits s (putSymbol a i s) [] [] s.writeAddr := ⟨⟨rfl, rfl, rfl, rfl, rfl, rfl, rfl, rfl⟩, rfl, rfl, rfl⟩
theorem putSymbol2_emits (a : Short) (i : SymInfo) (s : Asm) : Emits s (putSymbol2 a i s) [] [] s.writeAddr := ⟨⟨rfl, rfl, rfl, rfl, rfl, rfl, rfl, rfl⟩, rfl, rfl, rfl⟩
theorem markRef_emits (a : Short) (k : RefKind) (z : RefSize) (n : Option Str) (id : Short) (s : Asm) : Emits s (markRef a k z n id s) [] [] s.writeAddr := ⟨⟨rfl, rfl, rfl, rfl, rfl, rfl, rfl, rfl⟩, rfl, rfl, rfl⟩
theorem warning_emits (m : String) (r : Region) (s : Asm) : Emits s (warning m r s) [] [] s.writeAddr := ⟨⟨rfl, rfl, rfl, rfl, rfl, rfl, rfl, rfl⟩, rfl, rfl, rfl⟩

/-- `f` changes nothing but the log, with an event that does not matter. -/
theorem Emits.after {a b : Asm} {n : List (Short × Byte)} {e : List Short} {x : Short} (h : Emits a b n e x) {c : Asm} (h' : Emits b c [] [] b.writeAddr) : Emits a c n e x := by
  have := h.trans h'
  rw [h.addr] at this
  exact this

theorem emit2_emits (t : Token) (x : Short) (p : Bool) (s : Asm) (h : (emit2 t x p s).2.success = true) :
    (emit2 t x p s).1 = true ∧ Emits s (emit2 t x p s).2 (numberAt s.writeAddr .short x) (if p then [] else cells s.writeAddr .short) (s.writeAddr + 2) := by
  unfold emit2 at h ⊢
  obtain ⟨h1, he⟩ := andThen_ok (emit_emits t (hi8 x) p s) (andThen_ext (emit_ext _ _ _ _) fun s => .refl s) h
  rw [he] at h ⊢
  obtain ⟨h3, he'⟩ := andThen_ok (emit_emits t (lo8 x) p _) (.refl _) h
  rw [he']
  rw [h1.addr] at h3
  refine ⟨rfl, ?_⟩
  have := h1.trans h3
  have e : s.writeAddr + 1 + 1 = s.writeAddr + 2 := by rw [BitVec.add_assoc]; rfl
  rw [e] at this
  cases p <;> exact this

theorem emitOpcode_emits (t : Token) (op : Byte) (r : Bool) (s : Asm) (h : (emitOpcode t op r s).2.success = true) :
    (emitOpcode t op r s).1 = true ∧ Emits s (emitOpcode t op r s).2 [(s.writeAddr, op)] [s.writeAddr] (s.writeAddr + 1) := by
  unfold emitOpcode at h ⊢
  obtain ⟨h1, he⟩ := andThen_ok (emit_emits t op false s) (putSymbol_ext _ _ _) h
  rw [he]
  exact ⟨rfl, h1.after (putSymbol_emits _ _ _)⟩

theorem emitByte_emits (t : Token) (b : Byte) (r : Bool) (s : Asm) (h : (emitByte t b r s).2.success = true) :
    (emitByte t b r s).1 = true ∧ Emits s (emitByte t b r s).2 [(s.writeAddr, b)] [s.writeAddr] (s.writeAddr + 1) := by
  unfold emitByte at h ⊢
  obtain ⟨h1, he⟩ := andThen_ok (emit_emits t b false s) (putSymbol_ext _ _ _) h
  rw [he]
  exact ⟨rfl, h1.after (putSymbol_emits _ _ _)⟩

theorem emitShort_emits (t : Token) (x : Short) (r : Bool) (s : Asm) (h : (emitShort t x r s).2.success = true) :
    (emitShort t x r s).1 = true ∧ Emits s (emitShort t x r s).2 (numberAt s.writeAddr .short x) (cells s.writeAddr .short) (s.writeAddr + 2) := by
  unfold emitShort at h ⊢
  obtain ⟨h1, he⟩ := andThen_ok (emit2_emits t x false s) (putSymbol2_ext _ _ _) h
  rw [he]
  exact ⟨rfl, h1.after (putSymbol2_emits _ _ _)⟩

theorem emitPlaceholder_emits (t : Token) (k : RefKind) (z : RefSize) (name : Option Str) (id : Short) (r : Bool) (s : Asm)
    (h : (emitPlaceholder t k z name id r s).2.success = true) :
    (emitPlaceholder t k z name id r s).1 = true ∧ Emits s (emitPlaceholder t k z name id r s).2 (numberAt s.writeAddr z 1) (cells s.writeAddr z) (s.writeAddr + width z) := by
  unfold emitPlaceholder at h ⊢
  cases z with
  | byte =>
    dsimp only at h ⊢
    obtain ⟨h1, he⟩ := andThen_ok (emit_emits t 0x01 false s) ((markRef_ext _ _ _ _ _ _).trans (putSymbol_ext _ _ _)) h
    rw [he]
    exact ⟨rfl, (h1.after (markRef_emits _ _ _ _ _ _)).after (putSymbol_emits _ _ _)⟩
  | short =>
    dsimp only at h ⊢
    obtain ⟨h1, he⟩ := andThen_ok (emit2_emits t 0x01 false s) ((markRef_ext _ _ _ _ _ _).trans (putSymbol2_ext _ _ _)) h
    rw [he]
    exact ⟨rfl, (h1.after (markRef_emits _ _ _ _ _ _)).after (putSymbol2_emits _ _ _)⟩

theorem calculateAddr_emits (t : Token) (k : RefKind) (a l : Short) (s : Asm) : Emits s (calculateAddr t k a l s).2 [] [] s.writeAddr := by
  cases k with
  | zero =>
    unfold calculateAddr
    dsimp only
    split
    · exact warning_emits _ _ _
    · exact .refl s
  | abs => exact .refl s
  | rel => exact .refl s

theorem emitAddr_emits (t : Token) (k : RefKind) (z : RefSize) (v : Int) (i : Option SymInfo) (p : Bool) (s : Asm)
    (h : (emitAddr t k z v i p s).2.success = true) :
    (emitAddr t k z v i p s).1 = true ∧ (k = .rel → z = .byte → -128 ≤ v ∧ v ≤ 127) ∧
    Emits s (emitAddr t k z v i p s).2 (numberAt s.writeAddr z (BitVec.ofInt 16 v)) (if p then [] else cells s.writeAddr z) (s.writeAddr + width z) := by
  unfold emitAddr at h ⊢
  cases z with
  | byte =>
    dsimp only at h ⊢
    split
    · rename_i hc; rw [if_pos hc] at h; cases h
    · rename_i hc; rw [if_neg hc] at h
      have hreach : k = .rel → RefSize.byte = .byte → -128 ≤ v ∧ v ≤ 127 := fun hk _ => by
        rw [not_and_or] at hc
        rcases hc with hc | hc
        · exact absurd hk hc
        · omega
      cases i with
      | none =>
        obtain ⟨h2, he⟩ := andThen_ok (emit_emits t _ p s) (.refl _) h
        rw [he]
        exact ⟨rfl, hreach, h2⟩
      | some i =>
        obtain ⟨h2, he⟩ := andThen_ok (emit_emits t _ p s) (putSymbol_ext _ _ _) h
        rw [he]
        exact ⟨rfl, hreach, h2.after (putSymbol_emits _ _ _)⟩
  | short =>
    dsimp only at h ⊢
    cases i with
    | none =>
      obtain ⟨h2, he⟩ := andThen_ok (emit2_emits t _ p s) (.refl _) h
      rw [he]
      exact ⟨rfl, (fun _ h => by cases h), h2⟩
    | some i =>
      obtain ⟨h2, he⟩ := andThen_ok (emit2_emits t _ p s) (putSymbol2_ext _ _ _) h
      rw [he]
      exact ⟨rfl, (fun _ h => by cases h), h2.after (putSymbol2_emits _ _ _)⟩

theorem emitBackwardRef_emits (t : Token) (k : RefKind) (z : RefSize) (name : Option Str) (id l : Short) (w r : Bool) (s : Asm)
    (h : (emitBackwardRef t k z name id l w r s).2.success = true) :
    (emitBackwardRef t k z name id l w r s).1 = true ∧ InReach k z s.writeAddr l ∧
    Emits s (emitBackwardRef t k z name id l w r s).2 (numberAt s.writeAddr z (BitVec.ofInt 16 (refValue k s.writeAddr l))) (if w then cells s.writeAddr z else [])
      (s.writeAddr + width z) := by
  unfold emitBackwardRef at h ⊢
  dsimp only at h ⊢
  have h0 := calculateAddr_emits t k s.writeAddr l s
  have hv := calculateAddr_value t k s.writeAddr l s
  generalize calculateAddr t k s.writeAddr l s = c at *
  obtain ⟨v, s1⟩ := c
  dsimp only at *
  subst hv
  obtain ⟨⟨hr, h2⟩, he⟩ := andThen_ok (emitAddr_emits t k z _ _ _ s1) (by split; exacts [markRef_ext _ _ _ _ _ _, .refl _]) h
  rw [he]
  rw [h0.addr] at h2
  have h3 := h0.trans h2
  rw [List.append_nil, List.append_nil] at h3
  refine ⟨rfl, hr, ?_⟩
  cases w with
  | false => exact h3
  | true => exact h3.after (markRef_emits _ _ _ _ _ _)

/-- All references of a list are filled in. -/
theorem patchAll_emits (name : Str) (id l : Short) (fs : List FRef) (s : Asm) (h : (patchAll name id l fs s).success = true) :
    ∃ n a, Emits s (patchAll name id l fs s) n [] a ∧ (∀ p ∈ n, ∃ f ∈ fs, p.1 ∈ cells f.addr f.size) ∧ (∀ f ∈ fs, InReach f.kind f.size f.addr l) ∧
      ((∀ f ∈ fs, ∀ g ∈ fs, (f.addr, f.kind, f.size) ≠ (g.addr, g.kind, g.size) → List.Disjoint (cells f.addr f.size) (cells g.addr g.size)) →
        ∀ f ∈ fs, HoldsNumber (img (n ++ written s.log)) f.addr f.size (refValue f.kind f.addr l)) ∧
      n = fs.reverse.flatMap fun f => numberAt f.addr f.size (BitVec.ofInt 16 (refValue f.kind f.addr l)) := by
  induction fs generalizing s with
  | nil => exact ⟨[], _, .refl s, by simp, by simp, by simp, rfl⟩
  | cons f fs ih =>
    rw [patchAll] at h ⊢
    obtain ⟨-, hr, h1⟩ := emitBackwardRef_emits f.token f.kind f.size (some name) id l false false { s with writeAddr := f.addr } ((patchAll_ext _ _ _ _ _).ok h)
    obtain ⟨n, a, h2, i1, i2, i3, i4⟩ := ih _ h
    dsimp only at hr h1
    have h1' : Emits s (emitBackwardRef f.token f.kind f.size (some name) id l false false { s with writeAddr := f.addr }).2
        (numberAt f.addr f.size (BitVec.ofInt 16 (refValue f.kind f.addr l))) [] (f.addr + width f.size) :=
      ⟨⟨h1.same.1, h1.same.2, h1.same.3, h1.same.4, h1.same.5, h1.same.6, h1.same.7, h1.same.8⟩, h1.addr, h1.written, h1.emitted⟩
    refine ⟨_, a, h1'.trans h2, ?_, ?_, ?_, by rw [i4]; simp⟩
    · intro p hp
      rcases List.mem_append.1 hp with hp | hp
      · obtain ⟨g, hg, h⟩ := i1 p hp
        exact ⟨g, List.mem_cons_of_mem _ hg, h⟩
      · exact ⟨f, List.mem_cons_self, by rw [← numberAt_addrs f.addr f.size]; exact List.mem_map_of_mem hp⟩
    · intro g hg
      rcases List.mem_cons.1 hg with rfl | hg
      exacts [hr, i2 g hg]
    · intro hd g hg
      have i3 := i3 fun f hf g hg => hd f (List.mem_cons_of_mem _ hf) g (List.mem_cons_of_mem _ hg)
      rw [h1'.written] at i3
      rw [List.append_assoc]
      rcases List.mem_cons.1 hg with rfl | hg
      · by_cases hx : ∃ g' ∈ fs, (g.addr, g.kind, g.size) = (g'.addr, g'.kind, g'.size)
        · obtain ⟨g', hg', e⟩ := hx
          simp only [Prod.mk.injEq] at e
          obtain ⟨e1, e2, e3⟩ := e
          rw [e1, e2, e3]
          have := i3 g' hg'
          rw [e1, e2, e3] at this
          exact this
        · refine HoldsNumber.congr (m := img (numberAt g.addr g.size (BitVec.ofInt 16 (refValue g.kind g.addr l)) ++ written s.log)) ?_ (numberAt_holds _ _ _ _)
          intro b hb
          apply img_append_of_not_mem
          intro hm
          obtain ⟨p, hp, rfl⟩ := List.mem_map.1 hm
          obtain ⟨g', hg', hc⟩ := i1 p hp
          exact hd g List.mem_cons_self g' (List.mem_cons_of_mem _ hg') (fun e => hx ⟨g', hg', e⟩) hb hc
      · exact i3 g hg

/-! ## Memory -/

theorem Reference.cells_eq (r : Reference) : r.cells = Asm.cells r.addr r.size := by
  unfold Reference.cells Asm.cells
  cases r.size <;> rfl

/-- Where a target is. -/
def findIn (labels : List (Str × Short)) (closed : List (Nat × Short)) : Target → Option Short
  | .name n => labels.lookup n
  | .place a => some a
  | .lambda k => closed.lookup k

/-- The addresses that are filled. -/
def placesOf (bytes : List (Short × Byte)) (refs : List Reference) : List Short := bytes.map (·.1) ++ refs.flatMap (·.cells)

/-- What was written is what the specification says, if no byte was written twice. -/
structure Memory (log : List Event) (bytes : List (Short × Byte)) (refs : List Reference) (labels : List (Str × Short)) (closed : List (Nat × Short)) : Prop where
  places : (emitted log).Perm (placesOf bytes refs)
  sub : ∀ p ∈ written log, p.1 ∈ emitted log
  bytes : (emitted log).Nodup → ∀ p ∈ bytes, img (written log) p.1 = p.2
  reach : ∀ r ∈ refs, ∀ l, findIn labels closed r.target = some l → InReach r.kind r.size r.addr l
  refs : (emitted log).Nodup → ∀ r ∈ refs, ∀ l, findIn labels closed r.target = some l →
    InReach r.kind r.size r.addr l ∧ HoldsNumber (img (written log)) r.addr r.size (refValue r.kind r.addr l)

section
variable {log log' : List Event} {bytes : List (Short × Byte)} {refs : List Reference} {labels : List (Str × Short)} {closed : List (Nat × Short)}

theorem Memory.mem_byte (h : Memory log bytes refs labels closed) {p : Short × Byte} (hp : p ∈ bytes) : p.1 ∈ emitted log :=
  h.places.mem_iff.2 (List.mem_append_left _ (List.mem_map_of_mem hp))

theorem Memory.mem_ref (h : Memory log bytes refs labels closed) {r : Reference} (hr : r ∈ refs) {a : Short} (ha : a ∈ Asm.cells r.addr r.size) : a ∈ emitted log :=
  h.places.mem_iff.2 (List.mem_append_right _ (List.mem_flatMap.2 ⟨r, hr, by rw [Reference.cells_eq]; exact ha⟩))

/-- New bytes at new addresses leave what was there alone. -/
theorem Memory.old (h : Memory log bytes refs labels closed) (n : List (Short × Byte)) (hd : (n.map (·.1) ++ emitted log).Nodup) :
    (∀ p ∈ bytes, img (n ++ written log) p.1 = p.2) ∧ ∀ r ∈ refs, ∀ l, findIn labels closed r.target = some l →
      InReach r.kind r.size r.addr l ∧ HoldsNumber (img (n ++ written log)) r.addr r.size (refValue r.kind r.addr l) := by
  have hn := (List.nodup_append.1 hd)
  have key : ∀ a ∈ emitted log, a ∉ n.map (·.1) := fun a ha hm => hn.2.2 a hm a ha rfl
  refine ⟨fun p hp => ?_, fun r hr l hl => ?_⟩
  · rw [img_append_of_not_mem _ _ _ (key _ (h.mem_byte hp))]
    exact h.bytes hn.2.1 p hp
  · obtain ⟨h1, h2⟩ := h.refs hn.2.1 r hr l hl
    exact ⟨h1, HoldsNumber.congr (fun b hb => img_append_of_not_mem _ _ _ (key _ (h.mem_ref hr hb))) h2⟩

theorem img_cons (a : Short) (b : Byte) (w : List (Short × Byte)) : img ((a, b) :: w) a = b := by simp [img]

/-- A byte is put. -/
theorem Memory.put (h : Memory log bytes refs labels closed) (a : Short) (b : Byte) (hw : written log' = (a, b) :: written log) (he : emitted log' = a :: emitted log) :
    Memory log' ((a, b) :: bytes) refs labels closed where
  places := by rw [he]; exact h.places.cons a
  sub p hp := by
    rw [hw] at hp; rw [he]
    rcases List.mem_cons.1 hp with rfl | hp
    · exact List.mem_cons_self
    · exact List.mem_cons_of_mem _ (h.sub p hp)
  bytes hd p hp := by
    rw [he] at hd; rw [hw]
    rcases List.mem_cons.1 hp with rfl | hp
    · exact img_cons _ _ _
    · exact (h.old [(a, b)] hd).1 p hp
  refs hd r hr l hl := by
    rw [he] at hd; rw [hw]
    exact (h.old [(a, b)] hd).2 r hr l hl
  reach := h.reach

/-- A reference is put: if its target is known it has its final value. -/
theorem Memory.refer (h : Memory log bytes refs labels closed) (r : Reference) (x : Short) (hw : written log' = numberAt r.addr r.size x ++ written log)
    (he : emitted log' = Asm.cells r.addr r.size ++ emitted log)
    (hx : ∀ l, findIn labels closed r.target = some l → InReach r.kind r.size r.addr l ∧ x = BitVec.ofInt 16 (refValue r.kind r.addr l)) :
    Memory log' bytes (r :: refs) labels closed where
  places := by
    rw [he, placesOf, List.flatMap_cons, Reference.cells_eq]
    exact (List.Perm.append_left _ h.places).trans (List.perm_append_comm_assoc _ _ _)
  sub p hp := by
    rw [hw] at hp; rw [he]
    rcases List.mem_append.1 hp with hp | hp
    · exact List.mem_append_left _ (by rw [← numberAt_addrs r.addr r.size]; exact List.mem_map_of_mem hp)
    · exact List.mem_append_right _ (h.sub p hp)
  bytes hd p hp := by
    rw [he, ← numberAt_addrs r.addr r.size x] at hd; rw [hw]
    exact (h.old _ hd).1 p hp
  refs hd q hq l hl := by
    rw [he, ← numberAt_addrs r.addr r.size x] at hd; rw [hw]
    rcases List.mem_cons.1 hq with rfl | hq
    · obtain ⟨h1, rfl⟩ := hx l hl
      exact ⟨h1, numberAt_holds _ _ _ _⟩
    · exact (h.old _ hd).2 q hq l hl
  reach q hq l hl := by
    rcases List.mem_cons.1 hq with rfl | hq
    · exact (hx l hl).1
    · exact h.reach q hq l hl

theorem Memory.ref_disjoint (h : Memory log bytes refs labels closed) (hd : (emitted log).Nodup) {r q : Reference} (hr : r ∈ refs) (hq : q ∈ refs) (hne : r ≠ q) :
    List.Disjoint (Asm.cells r.addr r.size) (Asm.cells q.addr q.size) := by
  have h1 : (placesOf bytes refs).Nodup := h.places.nodup_iff.1 hd
  have h2 := (List.nodup_flatMap.1 (List.nodup_append.1 h1).2.1).2
  have : Std.Symm (Function.onFun List.Disjoint Reference.cells) := ⟨fun _ _ h _ h1 h2 => h h2 h1⟩
  have h3 := List.Pairwise.forall h2 hr hq hne
  rw [Function.onFun, Reference.cells_eq, Reference.cells_eq] at h3
  exact h3

theorem Memory.byte_disjoint (h : Memory log bytes refs labels closed) (hd : (emitted log).Nodup) {r : Reference} (hr : r ∈ refs) {p : Short × Byte} (hp : p ∈ bytes) :
    p.1 ∉ Asm.cells r.addr r.size := by
  have h1 : (placesOf bytes refs).Nodup := h.places.nodup_iff.1 hd
  intro hc
  exact (List.nodup_append.1 h1).2.2 p.1 (List.mem_map_of_mem hp) p.1 (List.mem_flatMap.2 ⟨r, hr, by rw [Reference.cells_eq]; exact hc⟩) rfl

/-- A target becomes known: all references to it are filled in. -/
theorem Memory.resolve {labels' : List (Str × Short)} {closed' : List (Nat × Short)} (h : Memory log bytes refs labels closed) (t : Target) (a : Short) (n : List (Short × Byte))
    (hw : written log' = n ++ written log) (he : emitted log' = emitted log)
    (hf : ∀ t', t' ≠ t → findIn labels' closed' t' = findIn labels closed t') (ha : findIn labels' closed' t = some a)
    (hn : ∀ p ∈ n, ∃ r ∈ refs, r.target = t ∧ p.1 ∈ Asm.cells r.addr r.size)
    (hx : ∀ r ∈ refs, r.target = t → InReach r.kind r.size r.addr a)
    (hr : (emitted log).Nodup → ∀ r ∈ refs, r.target = t → InReach r.kind r.size r.addr a ∧ HoldsNumber (img (n ++ written log)) r.addr r.size (refValue r.kind r.addr a)) :
    Memory log' bytes refs labels' closed' where
  places := by rw [he]; exact h.places
  sub p hp := by
    rw [hw] at hp; rw [he]
    rcases List.mem_append.1 hp with hp | hp
    · obtain ⟨r, hr, -, hc⟩ := hn p hp
      exact h.mem_ref hr hc
    · exact h.sub p hp
  bytes hd p hp := by
    rw [he] at hd; rw [hw, img_append_of_not_mem]
    · exact h.bytes hd p hp
    · intro hm
      obtain ⟨q, hq, e⟩ := List.mem_map.1 hm
      obtain ⟨r, hr, -, hc⟩ := hn q hq
      rw [e] at hc
      exact h.byte_disjoint hd hr hp hc
  refs hd r hm l hl := by
    rw [he] at hd; rw [hw]
    by_cases ht : r.target = t
    · rw [ht, ha] at hl; cases hl
      exact hr hd r hm ht
    · rw [hf _ ht] at hl
      obtain ⟨h1, h2⟩ := h.refs hd r hm l hl
      refine ⟨h1, HoldsNumber.congr (fun b hb => img_append_of_not_mem _ _ _ fun hx => ?_) h2⟩
      obtain ⟨q, hq, e⟩ := List.mem_map.1 hx
      obtain ⟨r', hr', ht', hc⟩ := hn q hq
      rw [e] at hc
      exact h.ref_disjoint hd hm hr' (fun e => ht (by rw [e]; exact ht')) hb hc
  reach r hm l hl := by
    by_cases ht : r.target = t
    · rw [ht, ha] at hl; cases hl
      exact hx r hm ht
    · rw [hf _ ht] at hl
      exact h.reach r hm l hl

theorem Memory.same (h : Memory log bytes refs labels closed) (hw : written log' = written log) (he : emitted log' = emitted log) : Memory log' bytes refs labels closed where
  places := by rw [he]; exact h.places
  sub := by rw [hw, he]; exact h.sub
  bytes := by rw [hw, he]; exact h.bytes
  refs := by rw [hw, he]; exact h.refs
  reach := h.reach

end

end Buxn.Asm.Meaning
