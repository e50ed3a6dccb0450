import Verif.Asm.Lexer
import Mathlib.Tactic.Linarith
import Mathlib.Data.List.Basic
/-!
# C40: the symbol map

Models the hash trie macros (`/repo/src/asm/hamt.h`) and its three users in the assembler: the interned strings, the symbols
and the set of included files. A node of a trie is reached through exactly one slot (the root or a child of one node) and is
never freed, so that the structure is a tree; a slot (`ITR`) is the path to it. An address of an allocated object is the
number of objects of that kind that were allocated before. The hash function is a parameter.
-/

namespace Buxn.Asm.Hamt
open Buxn.VM Buxn.Asm

/-- A node with its key, what else is stored, and `children`; `empty` is `NULL`. `hamt.h:25` (four children). -/
inductive Trie (K V : Type) where
  | empty
  | node (key : K) (val : V) (children : Fin 4 → Trie K V)

/-- A slot: the children to follow from the root. -/
abbrev Slot := List (Fin 4)

/-- `hash & BHAMT_MASK`, `hamt.h:26`. -/
def low {w : Nat} (hash : BitVec w) : Fin 4 := ⟨hash.toNat % 4, Nat.mod_lt _ (by decide)⟩

/-- `BHAMT_SEARCH`, `hamt.h:28-43`: the slot `ITR` and `RESULT`. -/
def search {K V : Type} [DecidableEq K] {w : Nat} : Trie K V → BitVec w → K → Slot × Option V
  | .empty, _, _ => ([], none)
  | .node key val children, hash, k =>
    if key = k then ([], some val)
    else
      let r := search (children (low hash)) (hash >>> 2) k
      (low hash :: r.1, r.2)

/-- `BHAMT_GET`, `hamt.h:45-49`. -/
def get {K V : Type} [DecidableEq K] {w : Nat} (t : Trie K V) (hash : BitVec w) (k : K) : Option V := (search t hash k).2

/-- `*itr = node`, with no children. -/
def store {K V : Type} : Trie K V → Slot → K → V → Trie K V
  | _, [], k, v => .node k v fun _ => .empty
  | .empty, _ :: _, k, v => .node k v fun _ => .empty
  | .node key val children, i :: slot, k, v => .node key val fun j => if j = i then store (children i) slot k v else children j

/-- `buxn_asm_pstr_t`, `asm.c:67-73`, with its address. -/
structure Pstr where
  addr : Nat
  key : Str
  hash : BitVec 64
  deriving DecidableEq

/-- The three tries: `asm.c:75-77`, `:155-159`, `:167-169`. -/
structure Maps where
  strpool : Trie Str Pstr := .empty
  numStrings : Nat := 0
  symtab : Trie Nat Nat := .empty
  numSymbols : Nat := 0
  includes : Trie Nat _root_.Unit := .empty

section
variable (H : Str → BitVec 64)

/-- `buxn_asm_strintern`, `asm.c:726-751`. -/
def strintern (s : Str) (m : Maps) : Pstr × Maps :=
  let hash := H s
  match search m.strpool hash s with
  | (_, some p) => (p, m)
  | (itr, none) =>
    let p : Pstr := ⟨m.numStrings, s, hash⟩
    (p, { m with strpool := store m.strpool itr s p, numStrings := m.numStrings + 1 })

/-- `buxn_asm_strfind`, `asm.c:753-759`. -/
def strfind (s : Str) (m : Maps) : Option Pstr := get m.strpool (H s) s

/-- The part of `buxn_asm_find_or_create_symbol` after the checks of the name, `asm.c:810-837`: the address of the symbol. -/
def findOrCreateSymbol (s : Str) (m : Maps) : Nat × Maps :=
  let (p, m) := strintern H s m
  match search m.symtab p.hash p.addr with
  | (_, some n) => (n, m)
  | (itr, none) => (m.numSymbols, { m with symtab := store m.symtab itr p.addr m.numSymbols, numSymbols := m.numSymbols + 1 })

/-- `buxn_asm_strfind` and `buxn_asm_find_symbol` (`asm.c:840-845`), as used for paddings (`asm.c:1815-1825`). -/
def findSymbol (s : Str) (m : Maps) : Option Nat :=
  match strfind H s m with
  | none => none
  | some p => get m.symtab p.hash p.addr

/-- Entering a file into the set of includes, `asm.c:2102-2121`: was it there before? -/
def includeFile (s : Str) (m : Maps) : Bool × Maps :=
  let (p, m) := strintern H s m
  match search m.includes p.hash p.addr with
  | (_, some _) => (true, m)
  | (itr, none) => (false, { m with includes := store m.includes itr p.addr () })

/-- Looking for a file in the set of includes, `asm.c:2187-2193`. -/
def isIncluded (s : Str) (m : Maps) : Bool × Maps :=
  let (p, m) := strintern H s m
  ((get m.includes p.hash p.addr).isSome, m)

/-- What the assembler does with names. -/
inductive Request where
  | intern (s : Str)
  | symbol (s : Str)
  | lookup (s : Str)
  | include (s : Str)
  | included (s : Str)
  deriving DecidableEq

/-- The answers: an address, or yes and no. -/
inductive Answer where
  | addr (a : Option Nat)
  | known (b : Bool)
  deriving DecidableEq

def request : Request → Maps → Answer × Maps
  | .intern s, m => let (p, m) := strintern H s m; (.addr (some p.addr), m)
  | .symbol s, m => let (n, m) := findOrCreateSymbol H s m; (.addr (some n), m)
  | .lookup s, m => (.addr (findSymbol H s m), m)
  | .include s, m => let (b, m) := includeFile H s m; (.known b, m)
  | .included s, m => let (b, m) := isIncluded H s m; (.known b, m)

def requests : List Request → Maps → List Answer
  | [], _ => []
  | r :: rs, m => (request H r m).1 :: requests rs (request H r m).2

end

/-! ## Specification -/

namespace Spec

/-- Three lists of different names, in the order of their first occurrence. -/
structure Names where
  strings : List Str := []
  symbols : List Str := []
  includes : List Str := []

/-- Append a name that is new. -/
def note (s : Str) (l : List Str) : List Str := if s ∈ l then l else l ++ [s]

/-- The place of a name. -/
def place (s : Str) (l : List Str) : Option Nat := if s ∈ l then some (l.idxOf s) else none

/-- A string, a symbol is identified by its place in the list. A request other than `lookup` makes the name known. -/
def answer : Request → Names → Answer × Names
  | .intern s, n => (.addr (place s (note s n.strings)), { n with strings := note s n.strings })
  | .symbol s, n => (.addr (place s (note s n.symbols)), { n with strings := note s n.strings, symbols := note s n.symbols })
  | .lookup s, n => (.addr (place s n.symbols), n)
  | .include s, n => (.known (s ∈ n.includes), { n with strings := note s n.strings, includes := note s n.includes })
  | .included s, n => (.known (s ∈ n.includes), { n with strings := note s n.strings })

def answers : List Request → Names → List Answer
  | [], _ => []
  | r :: rs, n => (answer r n).1 :: answers rs (answer r n).2

end Spec

open Spec

/-! ## Proofs -/

theorem search_store {K V : Type} [DecidableEq K] {w w' : Nat} (t : Trie K V) (h : BitVec w) (k : K) (v : V) (h' : BitVec w') (k' : K) (hn : get t h k = none) :
    get (store t (search t h k).1 k v) h' k' = if k' = k then (if (search t h' k').1 = (search t h k).1 then some v else get (store t (search t h k).1 k v) h' k') else get t h' k' := by
  induction t generalizing h h' with
  | empty =>
    have hst : store (.empty : Trie K V) (search (.empty : Trie K V) h k).1 k v = .node k v fun _ => .empty := rfl
    rw [hst]
    have hg : get (.node k v fun _ => (.empty : Trie K V)) h' k' = if k = k' then some v else none := by
      unfold get search
      split <;> rfl
    rw [hg]
    by_cases hk : k' = k
    · rw [if_pos hk, if_pos hk.symm, if_pos (by unfold search; rfl)]
    · rw [if_neg hk, if_neg (fun e => hk e.symm)]
      rfl
  | node key val ch ih =>
    by_cases hkk : key = k
    · unfold get search at hn
      rw [if_pos hkk] at hn
      cases hn
    · have hs : search (.node key val ch) h k = (low h :: (search (ch (low h)) (h >>> 2) k).1, (search (ch (low h)) (h >>> 2) k).2) := by
        rw [search, if_neg hkk]
      have hn' : get (ch (low h)) (h >>> 2) k = none := by
        unfold get at hn ⊢
        rw [hs] at hn
        exact hn
      by_cases hk : k' = k
      · rw [if_pos hk]
        split
        · rename_i he
          have hs' : search (.node key val ch) h' k' = (low h' :: (search (ch (low h')) (h' >>> 2) k').1, (search (ch (low h')) (h' >>> 2) k').2) := by
            rw [search, if_neg (by rw [hk]; exact hkk)]
          rw [hs, hs'] at he
          injection he with he1 he2
          have := ih (low h) (h >>> 2) (h' >>> 2) hn'
          rw [if_pos hk, if_pos (by rw [← he2, he1])] at this
          rw [hs, store, get, search, if_neg (by rw [hk]; exact hkk)]
          dsimp only
          rw [he1, if_pos rfl]
          exact this
        · rfl
      · rw [if_neg hk, hs, store]
        unfold get
        rw [search, search]
        by_cases hkey : key = k'
        · rw [if_pos hkey, if_pos hkey]
        · rw [if_neg hkey, if_neg hkey]
          dsimp only
          by_cases hl : low h' = low h
          · rw [if_pos hl, hl]
            have := ih (low h) (h >>> 2) (h' >>> 2) hn'
            rw [if_neg hk] at this
            exact this
          · rw [if_neg hl]

theorem get_store {K V : Type} [DecidableEq K] {w : Nat} (t : Trie K V) (h : BitVec w) (k : K) (v : V) (hn : get t h k = none) :
    get (store t (search t h k).1 k v) h k = some v := by
  rw [search_store t h k v h k hn, if_pos rfl, if_pos rfl]

theorem get_store_ne {K V : Type} [DecidableEq K] {w w' : Nat} (t : Trie K V) (h : BitVec w) (k : K) (v : V) (h' : BitVec w') (k' : K) (hn : get t h k = none) (hk : k' ≠ k) :
    get (store t (search t h k).1 k v) h' k' = get t h' k' := by
  rw [search_store t h k v h' k' hn, if_neg hk]

/-- The tries hold what the lists do. -/
structure Agree (H : Str → BitVec 64) (m : Maps) (n : Names) : Prop where
  strings : ∀ s, get m.strpool (H s) s = (place s n.strings).map fun a => ⟨a, s, H s⟩
  numStrings : m.numStrings = n.strings.length
  symbols : ∀ s a, place s n.strings = some a → get m.symtab (H s) a = place s n.symbols
  fresh : ∀ a (h : BitVec 64), n.strings.length ≤ a → get m.symtab h a = none ∧ get m.includes h a = none
  subset : ∀ s, s ∈ n.symbols ∨ s ∈ n.includes → s ∈ n.strings
  numSymbols : m.numSymbols = n.symbols.length
  includes : ∀ s a, place s n.strings = some a → (get m.includes (H s) a).isSome = decide (s ∈ n.includes)

theorem place_note (s : Str) (l : List Str) : place s (note s l) = some (l.idxOf s) := by
  unfold note
  split
  · rename_i h
    rw [place, if_pos h]
  · rename_i h
    rw [place, if_pos (by simp), List.idxOf_append_of_notMem h, List.idxOf_eq_length h]
    simp

theorem place_note_ne {s s' : Str} (l : List Str) (h : s' ≠ s) : place s' (note s l) = place s' l := by
  unfold note
  split
  · rfl
  · unfold place
    by_cases hm : s' ∈ l
    · rw [if_pos hm, if_pos (by simp [hm]), List.idxOf_append_of_mem hm]
    · rw [if_neg hm, if_neg (by simp [hm, h])]

theorem place_inj {s s' : Str} {l : List Str} {a : Nat} (h : place s l = some a) (h' : place s' l = some a) : s = s' := by
  unfold place at h h'
  split at h
  · rename_i hm
    split at h'
    · have e := (Option.some.inj h).trans (Option.some.inj h').symm
      exact (List.idxOf_inj hm).1 e
    · cases h'
  · cases h

theorem place_lt {s : Str} {l : List Str} {a : Nat} (h : place s l = some a) : a < l.length := by
  unfold place at h
  split at h
  · rename_i hm
    cases h
    exact List.idxOf_lt_length_of_mem hm
  · cases h

theorem mem_note {s s' : Str} {l : List Str} : s' ∈ note s l ↔ s' = s ∨ s' ∈ l := by
  unfold note
  split
  · rename_i h
    constructor
    · exact .inr
    · rintro (rfl | h'); exacts [h, h']
  · rw [List.mem_append, List.mem_singleton, or_comm]

theorem note_length (s : Str) (l : List Str) : (note s l).length = if s ∈ l then l.length else l.length + 1 := by
  unfold note
  split
  · rfl
  · rw [List.length_append]; rfl

/-- Interning. -/
theorem strintern_agree {H : Str → BitVec 64} {m : Maps} {n : Names} (h : Agree H m n) (s : Str) :
    (strintern H s m).1 = ⟨n.strings.idxOf s, s, H s⟩ ∧ Agree H (strintern H s m).2 { n with strings := note s n.strings } := by
  have hs := h.strings s
  unfold strintern
  dsimp only
  by_cases hm : s ∈ n.strings
  · rw [place, if_pos hm] at hs
    have hns : note s n.strings = n.strings := if_pos hm
    rw [hns]
    unfold get at hs
    generalize search m.strpool (H s) s = r at hs
    obtain ⟨i, o⟩ := r
    dsimp only at hs
    rw [hs]
    exact ⟨rfl, h⟩
  · have hp : place s n.strings = none := if_neg hm
    rw [hp] at hs
    have hidx : n.strings.idxOf s = n.strings.length := List.idxOf_eq_length hm
    have hg : get m.strpool (H s) s = none := hs
    have hst := get_store m.strpool (H s) s (⟨m.numStrings, s, H s⟩ : Pstr) hg
    have hst' := fun k' (hk : k' ≠ s) => get_store_ne m.strpool (H s) s (⟨m.numStrings, s, H s⟩ : Pstr) (H k') k' hg hk
    unfold get at hs
    generalize search m.strpool (H s) s = r at hs hst hst'
    obtain ⟨i, o⟩ := r
    dsimp only at hs hst hst'
    have hs : o = none := hs
    rw [hs]
    dsimp only
    have hlen : (note s n.strings).length = n.strings.length + 1 := by rw [note_length, if_neg hm]
    refine ⟨by rw [h.numStrings, hidx], ⟨?_, ?_, ?_, ?_, ?_, h.numSymbols, ?_⟩⟩
    · intro s'
      by_cases he : s' = s
      · subst he
        dsimp only
        rw [hst, place_note, h.numStrings, hidx]
        rfl
      · dsimp only
        rw [hst' s' he, place_note_ne _ he]
        exact h.strings s'
    · dsimp only
      rw [hlen, h.numStrings]
    · intro s' a ha
      dsimp only at ha ⊢
      by_cases he : s' = s
      · subst he
        rw [place_note] at ha
        cases ha
        rw [(h.fresh _ _ (by rw [hidx])).1]
        exact (if_neg (fun hh => hm (h.subset _ (.inl hh)))).symm
      · rw [place_note_ne _ he] at ha
        exact h.symbols s' a ha
    · intro a g ha
      dsimp only at ha
      rw [hlen] at ha
      exact h.fresh a g (by omega)
    · intro s' hs'
      exact mem_note.2 (.inr (h.subset s' hs'))
    · intro s' a ha
      dsimp only at ha ⊢
      by_cases he : s' = s
      · subst he
        rw [place_note] at ha
        cases ha
        rw [(h.fresh _ _ (by rw [hidx])).2]
        rw [decide_eq_false (fun hh => hm (h.subset _ (.inr hh)))]
        rfl
      · rw [place_note_ne _ he] at ha
        exact h.includes s' a ha

/-- A symbol, once its name is known. -/
theorem symbol_agree {H : Str → BitVec 64} {m : Maps} {n : Names} (h : Agree H m n) (s : Str) (hs : s ∈ n.strings) :
    let r := match search m.symtab (H s) (n.strings.idxOf s) with
      | (_, some k) => (k, m)
      | (itr, none) => (m.numSymbols, { m with symtab := store m.symtab itr (n.strings.idxOf s) m.numSymbols, numSymbols := m.numSymbols + 1 })
    some r.1 = place s (note s n.symbols) ∧ Agree H r.2 { n with symbols := note s n.symbols } := by
  have hpl : place s n.strings = some (n.strings.idxOf s) := if_pos hs
  have hg := h.symbols s _ hpl
  by_cases hm : s ∈ n.symbols
  · rw [place, if_pos hm] at hg
    have hns : note s n.symbols = n.symbols := if_pos hm
    rw [hns, place, if_pos hm]
    unfold get at hg
    generalize search m.symtab (H s) (n.strings.idxOf s) = r at hg
    obtain ⟨i, o⟩ := r
    dsimp only at hg
    rw [hg]
    exact ⟨rfl, h⟩
  · have hp : place s n.symbols = none := if_neg hm
    rw [hp] at hg
    have hidx : n.symbols.idxOf s = n.symbols.length := List.idxOf_eq_length hm
    have hst := get_store m.symtab (H s) (n.strings.idxOf s) m.numSymbols hg
    have hst' := fun (g : BitVec 64) k' (hk : k' ≠ n.strings.idxOf s) => get_store_ne m.symtab (H s) (n.strings.idxOf s) m.numSymbols g k' hg hk
    unfold get at hg
    generalize search m.symtab (H s) (n.strings.idxOf s) = r at hg hst hst'
    obtain ⟨i, o⟩ := r
    dsimp only at hg hst hst'
    rw [hg]
    dsimp only
    refine ⟨by rw [place_note, hidx, h.numSymbols], ⟨h.strings, h.numStrings, ?_, ?_, ?_, ?_, h.includes⟩⟩
    · intro s' a ha
      dsimp only at ha ⊢
      by_cases he : s' = s
      · subst he
        rw [hpl] at ha
        cases ha
        rw [hst, place_note, hidx, h.numSymbols]
      · rw [hst' _ _ (fun e => he (place_inj ha (by rw [e]; exact hpl))), place_note_ne _ he]
        exact h.symbols s' a ha
    · intro a g ha
      dsimp only at ha ⊢
      have := place_lt hpl
      rw [hst' _ _ (by omega)]
      exact h.fresh a g ha
    · intro s' hs'
      rcases hs' with hs' | hs'
      · rcases mem_note.1 hs' with rfl | hs'
        · exact hs
        · exact h.subset s' (.inl hs')
      · exact h.subset s' (.inr hs')
    · dsimp only
      rw [note_length, if_neg hm, h.numSymbols]

/-- An include, once its name is known. -/
theorem include_agree {H : Str → BitVec 64} {m : Maps} {n : Names} (h : Agree H m n) (s : Str) (hs : s ∈ n.strings) :
    let r : Bool × Maps := match search m.includes (H s) (n.strings.idxOf s) with
      | (_, some _) => (true, m)
      | (itr, none) => (false, { m with includes := store m.includes itr (n.strings.idxOf s) () })
    r.1 = decide (s ∈ n.includes) ∧ Agree H r.2 { n with includes := note s n.includes } := by
  have hpl : place s n.strings = some (n.strings.idxOf s) := if_pos hs
  have hg := h.includes s _ hpl
  by_cases hm : s ∈ n.includes
  · rw [decide_eq_true hm] at hg
    have hns : note s n.includes = n.includes := if_pos hm
    rw [hns, decide_eq_true hm]
    unfold get at hg
    generalize search m.includes (H s) (n.strings.idxOf s) = r at hg
    obtain ⟨i, _ | o⟩ := r
    · cases hg
    · exact ⟨rfl, h⟩
  · rw [decide_eq_false hm] at hg
    have hg : get m.includes (H s) (n.strings.idxOf s) = none := by simpa using hg
    rw [decide_eq_false hm]
    have hst := get_store m.includes (H s) (n.strings.idxOf s) () hg
    have hst' := fun (g : BitVec 64) k' (hk : k' ≠ n.strings.idxOf s) => get_store_ne m.includes (H s) (n.strings.idxOf s) () g k' hg hk
    unfold get at hg
    generalize search m.includes (H s) (n.strings.idxOf s) = r at hg hst hst'
    obtain ⟨i, o⟩ := r
    dsimp only at hg hst hst'
    rw [hg]
    dsimp only
    refine ⟨rfl, ⟨h.strings, h.numStrings, h.symbols, ?_, ?_, h.numSymbols, ?_⟩⟩
    · intro a g ha
      dsimp only at ha ⊢
      have := place_lt hpl
      rw [hst' _ _ (by omega)]
      exact h.fresh a g ha
    · intro s' hs'
      rcases hs' with hs' | hs'
      · exact h.subset s' (.inl hs')
      · rcases mem_note.1 hs' with rfl | hs'
        · exact hs
        · exact h.subset s' (.inr hs')
    · intro s' a ha
      dsimp only at ha ⊢
      by_cases he : s' = s
      · subst he
        rw [hpl] at ha
        cases ha
        rw [hst, decide_eq_true (mem_note.2 (.inl rfl))]
        rfl
      · rw [hst' _ _ (fun e => he (place_inj ha (by rw [e]; exact hpl))), h.includes s' a ha]
        exact decide_eq_decide.2 (by rw [mem_note]; simp [he])

theorem request_agree {H : Str → BitVec 64} {m : Maps} {n : Names} (h : Agree H m n) (r : Request) :
    (request H r m).1 = (answer r n).1 ∧ Agree H (request H r m).2 (answer r n).2 := by
  have hidx : ∀ s, (note s n.strings).idxOf s = n.strings.idxOf s := by
    intro s
    have := place_note s n.strings
    rw [place, if_pos (mem_note.2 (.inl rfl))] at this
    exact Option.some.inj this
  cases r with
  | intern s =>
    obtain ⟨h1, h2⟩ := strintern_agree h s
    unfold request answer
    dsimp only
    rw [h1, place_note]
    exact ⟨rfl, h2⟩
  | symbol s =>
    obtain ⟨h1, h2⟩ := strintern_agree h s
    have h3 := symbol_agree h2 s (mem_note.2 (.inl rfl))
    dsimp only at h3
    rw [hidx] at h3
    unfold request findOrCreateSymbol answer
    dsimp only
    rw [h1]
    dsimp only
    rw [← h3.1]
    exact ⟨rfl, h3.2⟩
  | lookup s =>
    unfold request findSymbol strfind answer
    dsimp only
    rw [h.strings s]
    cases hp : place s n.strings with
    | none =>
      have : place s n.symbols = none := by
        unfold place at hp ⊢
        split at hp
        · cases hp
        · rename_i hm
          rw [if_neg (fun hh => hm (h.subset s (.inl hh)))]
      rw [this]
      exact ⟨rfl, h⟩
    | some a =>
      dsimp only [Option.map]
      rw [h.symbols s a hp]
      exact ⟨rfl, h⟩
  | «include» s =>
    obtain ⟨h1, h2⟩ := strintern_agree h s
    have h3 := include_agree h2 s (mem_note.2 (.inl rfl))
    dsimp only at h3
    rw [hidx] at h3
    unfold request includeFile answer
    dsimp only
    rw [h1]
    dsimp only
    rw [← h3.1]
    exact ⟨rfl, h3.2⟩
  | included s =>
    obtain ⟨h1, h2⟩ := strintern_agree h s
    have h3 := h2.includes s _ (place_note s n.strings)
    unfold request isIncluded answer
    dsimp only
    rw [h1]
    dsimp only
    rw [h3]
    exact ⟨rfl, h2⟩

theorem requests_agree {H : Str → BitVec 64} (rs : List Request) {m : Maps} {n : Names} (h : Agree H m n) : requests H rs m = answers rs n := by
  induction rs generalizing m n with
  | nil => rfl
  | cons r rs ih =>
    obtain ⟨h1, h2⟩ := request_agree h r
    rw [requests, answers, h1, ih h2]

theorem agree_empty (H : Str → BitVec 64) : Agree H {} {} :=
  ⟨fun _ => rfl, rfl, (fun _ _ h => by cases h), fun _ _ _ => ⟨rfl, rfl⟩, (fun s h => by rcases h with h | h <;> cases h), rfl, (fun _ _ h => by cases h)⟩

/-- **C40**: whatever the hash function, however many names have the same hash: the tries answer every sequence of requests
like lists of names, in which a name stands for its own entry and no other. -/
theorem C40_maps (H : Str → BitVec 64) (rs : List Request) : requests H rs {} = answers rs {} :=
  requests_agree rs (agree_empty H)

theorem agree_after {H : Str → BitVec 64} (rs : List Request) {m : Maps} {n : Names} (h : Agree H m n) :
    Agree H (rs.foldl (fun m r => (request H r m).2) m) (rs.foldl (fun n r => (answer r n).2) n) := by
  induction rs generalizing m n with
  | nil => exact h
  | cons r rs ih => exact ih (request_agree h r).2

theorem place_keep {s s' : Str} {l : List Str} {a : Nat} (h : place s l = some a) : place s (note s' l) = some a := by
  by_cases he : s = s'
  · subst he
    unfold place at h
    split at h
    · rw [place_note]; exact h
    · cases h
  · rw [place_note_ne _ he]; exact h

theorem answer_keep {s : Str} (r : Request) {n : Names} {a : Nat} (h : place s n.symbols = some a) : place s (answer r n).2.symbols = some a := by
  cases r with
  | symbol s' => exact place_keep h
  | intern s' => exact h
  | lookup s' => exact h
  | «include» s' => exact h
  | included s' => exact h

theorem answers_keep {s : Str} (rs : List Request) {n : Names} {a : Nat} (h : place s n.symbols = some a) :
    place s (rs.foldl (fun n r => (answer r n).2) n).symbols = some a := by
  induction rs generalizing n with
  | nil => exact h
  | cons r rs ih => exact ih (answer_keep r h)

/-- The same in other words: the entry made or found for a name is found again whatever was requested `before` and `since`,
and another name has another entry. -/
theorem C40_same_entry (H : Str → BitVec 64) (before since : List Request) (s s' : Str) :
    let first := request H (.symbol s) (before.foldl (fun m r => (request H r m).2) {})
    let later := since.foldl (fun m r => (request H r m).2) first.2
    (request H (.lookup s) later).1 = first.1 ∧ (request H (.symbol s) later).1 = first.1 ∧
      (s' ≠ s → (request H (.symbol s') later).1 ≠ first.1) := by
  have h0 := agree_after before (agree_empty H)
  generalize before.foldl (fun m r => (request H r m).2) {} = m at h0
  generalize before.foldl (fun n r => (answer r n).2) {} = n at h0
  intro first later
  obtain ⟨h1, h2⟩ := request_agree h0 (.symbol s)
  have h3 := agree_after since h2
  have hpl : place s (answer (.symbol s) n).2.symbols = some (n.symbols.idxOf s) := place_note s n.symbols
  have hk := answers_keep since hpl
  have hf : first.1 = .addr (some (n.symbols.idxOf s)) := by rw [show first.1 = _ from h1, ← hpl]; rfl
  generalize since.foldl (fun n r => (answer r n).2) (answer (.symbol s) n).2 = n' at h3 hk
  rw [hf]
  refine ⟨?_, ?_, ?_⟩
  · rw [(request_agree h3 (.lookup s)).1, ← hk]; rfl
  · rw [(request_agree h3 (.symbol s)).1, ← place_keep (s' := s) hk]; rfl
  · intro hne
    rw [(request_agree h3 (.symbol s')).1]
    intro he
    have hp : place s' (note s' n'.symbols) = some (n.symbols.idxOf s) := by
      have : Answer.addr (place s' (note s' n'.symbols)) = .addr (some (n.symbols.idxOf s)) := he
      exact Answer.addr.inj this
    exact hne (place_inj hp (place_keep hk))

/-- Three names with the same hash. -/
example : requests (fun _ => 0) [.symbol (str "a"), .lookup (str "b"), .symbol (str "b"), .intern (str "c"), .symbol (str "a"), .lookup (str "b"), .include (str "c"),
      .included (str "a"), .include (str "c")] {} =
    [.addr (some 0), .addr none, .addr (some 1), .addr (some 2), .addr (some 0), .addr (some 1), .known false, .known false, .known true] := by decide +kernel

end Buxn.Asm.Hamt
