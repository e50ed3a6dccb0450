import Verif.Chess.Reading
import Mathlib.Data.List.Nodup
/-!
# Which routines are checked

Whatever the assembler reports: a routine waits to be checked exactly when it has a signature that is not sealed, and it
waits once.
-/

namespace Buxn.Chess

open Buxn.Asm (Str SymType SymInfo ch str)

/-- The lists of routines are right. -/
structure Reader.Listed (r : Reader) : Prop where
  queued : ∀ a s, r.label a = some (some s) → r.marked a = true → ∃ t, routineEntry a s t ∈ r.queue
  signed : ∀ a, r.marked a = true → ∃ s, r.label a = some (some s)
  keyed : ∀ a, (r.label a).isSome = true → a ∈ r.keys
  known : ∀ a ∈ r.keys, (r.label a).isSome = true
  distinct : r.keys.Nodup
  entries : ∀ e ∈ r.queue, ∃ s t, e = routineEntry e.key s t ∧ r.label e.key = some (some s) ∧ r.marked e.key = true ∧ t < r.nextTrace
  once : (r.queue.map Entry.key).Nodup
  numbered : (r.queue.map Entry.trace).Nodup

/-- The lists have not changed. -/
structure SameLists (r r' : Reader) : Prop where
  label : r'.label = r.label
  keys : r'.keys = r.keys
  marked : r'.marked = r.marked
  queue : r'.queue = r.queue
  nextTrace : r'.nextTrace = r.nextTrace

theorem SameLists.refl (r : Reader) : SameLists r r := ⟨rfl, rfl, rfl, rfl, rfl⟩

theorem SameLists.trans {a b c : Reader} (h : SameLists a b) (h' : SameLists b c) : SameLists a c :=
  ⟨h'.label.trans h.label, h'.keys.trans h.keys, h'.marked.trans h.marked, h'.queue.trans h.queue, h'.nextTrace.trans h.nextTrace⟩

theorem SameLists.ite {p : Prop} [Decidable p] {r a b : Reader} (ha : SameLists r a) (hb : SameLists r b) : SameLists r (if p then a else b) := by
  split <;> assumption

theorem Reader.Listed.of_same {r r' : Reader} (h : r.Listed) (e : SameLists r r') : r'.Listed := by
  obtain ⟨e1, e2, e3, e4, e5⟩ := e
  refine ⟨?_, ?_, ?_, ?_, ?_, ?_, ?_, ?_⟩
  · rw [e1, e3, e4]; exact h.queued
  · rw [e1, e3]; exact h.signed
  · rw [e1, e2]; exact h.keyed
  · rw [e1, e2]; exact h.known
  · rw [e2]; exact h.distinct
  · rw [e1, e3, e4, e5]; exact h.entries
  · rw [e4]; exact h.once
  · rw [e4]; exact h.numbered

theorem reject_same (r : Reader) (w : Complaint) : SameLists r (r.reject w) := ⟨rfl, rfl, rfl, rfl, rfl⟩

theorem signatureToken_same (t : Str) (r : Reader) : SameLists r (signatureToken t r) := by
  unfold signatureToken
  dsimp only
  have h1 : SameLists r (if r.isSealed then r.reject .sealed else r) := .ite (reject_same r _) (.refl r)
  refine h1.trans ?_
  generalize (if r.isSealed then r.reject .sealed else r) = r1
  repeat' split
  all_goals exact ⟨rfl, rfl, rfl, rfl, rfl⟩

theorem castToken_same (t : Str) (r : Reader) : SameLists r (castToken t r) := by
  unfold castToken
  dsimp only
  have h1 : SameLists r (if r.isSealed then r.reject .sealed else r) := .ite (reject_same r _) (.refl r)
  refine h1.trans ?_
  generalize (if r.isSealed then r.reject .sealed else r) = r1
  repeat' split
  all_goals exact ⟨rfl, rfl, rfl, rfl, rfl⟩

theorem castEnd_same (r : Reader) : SameLists r (castEnd r) := by
  unfold castEnd
  split <;> exact ⟨rfl, rfl, rfl, rfl, rfl⟩

theorem secondStage_same (k : Handler) (t : Str) (r : Reader) : SameLists r (secondStage k t r) := by
  unfold secondStage
  split
  · exact .refl r
  · exact .ite (signatureToken_same t r) (castToken_same t r)

theorem stages_same (k : Handler) : ∀ (ts : List Str) (r : Reader), SameLists r (ts.foldl (fun r t => secondStage k t r) r)
  | [], r => .refl r
  | t :: ts, r => (secondStage_same k t r).trans (stages_same k ts _)

theorem buffer_same (b : Bool) (k : Handler) (t : Str) (r : Reader) : SameLists r (buffer b k t r) := by
  unfold buffer
  split
  · dsimp only
    have h1 : SameLists r { r with place := .wstIn, isSealed := false, handler := some k } := ⟨rfl, rfl, rfl, rfl, rfl⟩
    exact h1.trans ((stages_same k _ _).trans (secondStage_same k t _))
  · repeat' split
    all_goals exact ⟨rfl, rfl, rfl, rfl, rfl⟩

theorem annotate_same (t : Str) (r : Reader) : SameLists r (annotate t r) := by
  unfold annotate
  split
  · exact .refl r
  · dsimp only
    refine SameLists.trans ?_ (buffer_same _ _ _ _)
    split <;> exact ⟨rfl, rfl, rfl, rfl, rfl⟩
  · exact signatureToken_same t r
  · dsimp only
    refine SameLists.trans ?_ (buffer_same _ _ _ _)
    split <;> exact ⟨rfl, rfl, rfl, rfl, rfl⟩
  · exact castToken_same t r

theorem begin_listed : Reader.begin.Listed :=
  ⟨fun _ _ h => (by cases h), fun _ h => (by cases h), fun _ h => (by cases h), fun _ h => (by cases h), List.nodup_nil,
    fun _ h => (by cases h), List.nodup_nil, List.nodup_nil⟩

/-- A label without signature gets one. -/
theorem sign_listed {r : Reader} (h : r.Listed) {a : Short} (hl : r.label a = some none) (sig : Sig) :
    ({ r with label := upd r.label a (some (some sig)) } : Reader).Listed ∧
      (Reader.mark a sig { r with label := upd r.label a (some (some sig)) }).Listed := by
  have hm : ¬ r.marked a = true := by
    intro hm
    obtain ⟨s, hs⟩ := h.signed a hm
    rw [hl] at hs; cases hs
  have hne : ∀ e ∈ r.queue, e.key ≠ a := by
    intro e he hk
    obtain ⟨_, _, _, _, h3, _⟩ := h.entries e he
    rw [hk] at h3
    exact hm h3
  have some_iff : ∀ b, (upd r.label a (some (some sig)) b).isSome = (r.label b).isSome := by
    intro b
    by_cases e : b = a
    · rw [e, upd_same, hl]; rfl
    · rw [upd_other _ _ e]
  refine ⟨⟨fun b s hb hmb => ?_, fun b hmb => ?_, fun b hb => h.keyed b (by rw [← some_iff]; exact hb), fun b hb => by
      show (upd r.label a (some (some sig)) b).isSome = true
      rw [some_iff]; exact h.known b hb, h.distinct, fun e he => ?_, h.once, h.numbered⟩,
    ⟨fun b s hb hmb => ?_, fun b hmb => ?_, fun b hb => h.keyed b (by rw [← some_iff]; exact hb), fun b hb => by
      show (upd r.label a (some (some sig)) b).isSome = true
      rw [some_iff]; exact h.known b hb, h.distinct, fun e he => ?_, ?_, ?_⟩⟩
  · dsimp only at hb hmb
    by_cases e : b = a
    · rw [e] at hmb; exact absurd hmb hm
    · rw [upd_other _ _ e] at hb; exact h.queued b s hb hmb
  · dsimp only at hmb ⊢
    by_cases e : b = a
    · rw [e, upd_same]; exact ⟨_, rfl⟩
    · rw [upd_other _ _ e]; exact h.signed b hmb
  · obtain ⟨s, t, h1, h2, h3, h4⟩ := h.entries e he
    exact ⟨s, t, h1, (upd_other _ _ (hne e he)).trans h2, h3, h4⟩
  · dsimp only [Reader.mark] at hb hmb ⊢
    by_cases e : b = a
    · subst e
      rw [upd_same] at hb
      simp only [Option.some.injEq] at hb
      rw [← hb]
      exact ⟨_, List.mem_cons_self⟩
    · rw [upd_other _ _ e] at hb hmb
      obtain ⟨t, ht⟩ := h.queued b s hb hmb
      exact ⟨t, List.mem_cons_of_mem _ ht⟩
  · dsimp only [Reader.mark] at hmb ⊢
    by_cases e : b = a
    · rw [e, upd_same]; exact ⟨_, rfl⟩
    · rw [upd_other _ _ e] at hmb ⊢; exact h.signed b hmb
  · dsimp only [Reader.mark] at he ⊢
    rcases List.mem_cons.mp he with rfl | he
    · exact ⟨sig, _, rfl, upd_same _ _ _, upd_same _ _ _, Nat.lt_succ_self _⟩
    · obtain ⟨s, t, h1, h2, h3, h4⟩ := h.entries e he
      exact ⟨s, t, h1, (upd_other _ _ (hne e he)).trans h2, (upd_other _ _ (hne e he)).trans h3, by omega⟩
  · dsimp only [Reader.mark]
    rw [List.map_cons, List.nodup_cons]
    refine ⟨fun hin => ?_, h.once⟩
    obtain ⟨e, he, hk⟩ := List.mem_map.mp hin
    exact hne e he hk
  · dsimp only [Reader.mark]
    rw [List.map_cons, List.nodup_cons]
    refine ⟨fun hin => ?_, h.numbered⟩
    obtain ⟨e, he, hk⟩ := List.mem_map.mp hin
    obtain ⟨s, t, h1, _, _, h4⟩ := h.entries e he
    rw [h1] at hk
    have hk : t = r.nextTrace := hk
    omega

theorem signatureEnd_listed {r : Reader} (h : r.Listed) : (signatureEnd r).Listed := by
  unfold signatureEnd
  split
  · rename_i hl
    dsimp only
    obtain ⟨h1, h2⟩ := sign_listed h hl r.sig
    split
    · exact h1
    · exact h2
  · exact h.of_same ⟨rfl, rfl, rfl, rfl, rfl⟩

theorem annotationEnd_listed {r : Reader} (h : r.Listed) : (annotationEnd r).Listed := by
  unfold annotationEnd
  split
  · exact h
  · exact (signatureEnd_listed h).of_same ⟨rfl, rfl, rfl, rfl, rfl⟩
  · exact (h.of_same (castEnd_same r)).of_same ⟨rfl, rfl, rfl, rfl, rfl⟩
  · exact h.of_same ⟨rfl, rfl, rfl, rfl, rfl⟩

theorem Reader.Listed.ite {p : Prop} [Decidable p] {a b : Reader} (ha : a.Listed) (hb : b.Listed) : (if p then a else b).Listed := by
  split <;> assumption

theorem handleComment_listed {r : Reader} (h : r.Listed) (i : SymInfo) : (handleComment i r).Listed := by
  unfold handleComment
  dsimp only
  refine .ite (.ite (.ite ?_ (.ite ?_ ?_)) h) (.ite (annotationEnd_listed h) (.ite (h.of_same (annotate_same _ _)) ?_)) <;>
    exact h.of_same ⟨rfl, rfl, rfl, rfl, rfl⟩

theorem ensure_listed {r : Reader} (h : r.Listed) (a : Short) : (r.ensure a).Listed := by
  unfold Reader.ensure
  split
  · exact h
  · rename_i hl
    have hk : a ∉ r.keys := by
      intro hin
      have := h.known a hin
      rw [hl] at this; cases this
    have hne : ∀ b s, r.label b = some (some s) → b ≠ a := by
      rintro b s hb rfl
      rw [hl] at hb; cases hb
    refine ⟨fun b s hb hm => ?_, fun b hm => ?_, fun b hb => ?_, fun b hb => ?_, List.nodup_cons.mpr ⟨hk, h.distinct⟩, fun e he => ?_,
      h.once, h.numbered⟩ <;> dsimp only at *
    · by_cases e : b = a
      · rw [e, upd_same] at hb; cases hb
      · rw [upd_other _ _ e] at hb; exact h.queued b s hb hm
    · obtain ⟨s, hs⟩ := h.signed b hm
      exact ⟨s, (upd_other _ _ (hne b s hs)).trans hs⟩
    · by_cases e : b = a
      · rw [e]; exact List.mem_cons_self
      · rw [upd_other _ _ e] at hb; exact List.mem_cons_of_mem _ (h.keyed b hb)
    · by_cases e : b = a
      · rw [e, upd_same]; rfl
      · rw [upd_other _ _ e]
        rcases List.mem_cons.mp hb with hb | hb
        · exact absurd hb e
        · exact h.known b hb
    · obtain ⟨s, t, h1, h2, h3, h4⟩ := h.entries e he
      exact ⟨s, t, h1, (upd_other _ _ (hne _ s h2)).trans h2, h3, h4⟩

theorem handleCode_same (a : Short) (i : SymInfo) (r : Reader) : SameLists r (handleCode a i r) := by
  unfold handleCode
  dsimp only
  repeat' split
  all_goals exact ⟨rfl, rfl, rfl, rfl, rfl⟩

theorem handleSymbol_listed {r : Reader} (h : r.Listed) (a : Short) (i : SymInfo) : (handleSymbol a i r).Listed := by
  unfold handleSymbol
  split
  · exact handleComment_listed h i
  · split
    · exact h
    · apply ensure_listed
      exact h.of_same ⟨rfl, rfl, rfl, rfl, rfl⟩
  · exact h.of_same (handleCode_same a i r)
  · exact h.of_same (handleCode_same a i r)
  · exact h.of_same (handleCode_same a i r)
  · exact h.of_same (handleCode_same a i r)
  · exact h.of_same ⟨rfl, rfl, rfl, rfl, rfl⟩
  · exact h

theorem readAll_listed (events : List Asm.Event) : (readAll events).Listed := by
  have key : ∀ (es : List Asm.Event) (r : Reader), r.Listed → (es.foldl (fun r e => match e with
      | .sym a i => handleSymbol a i r
      | _ => r) r).Listed := by
    intro es
    induction es with
    | nil => exact fun _ h => h
    | cons e es ih =>
      intro r h
      rw [List.foldl_cons]
      apply ih
      cases e <;> first | exact h | exact handleSymbol_listed h _ _
  exact key events _ begin_listed

theorem finish_listed {r : Reader} (h : r.Listed) : r.finish.Listed := by
  unfold Reader.finish
  dsimp only
  have h1 := ensure_listed h 0x0100
  split
  · rename_i hl
    exact (sign_listed h1 hl {}).2
  · exact h1

end Buxn.Chess
