import Verif.Chess.Safety
import Verif.Chess.Parse
/-!
# What the annotation parsers deliver

Whatever the assembler reports, signatures and casts have at most eight values per stack and those values say nothing
about numbers.
-/

namespace Buxn.Chess

open Buxn.Asm (Str SymType SymInfo ch str)

structure Reader.Ok (r : Reader) : Prop where
  sig : r.sig.Ok
  cast : PlainArgs r.cast.wst ∧ PlainArgs r.cast.rst
  labels : ∀ a s, r.label a = some (some s) → s.Ok
  casts : ∀ a k, r.casts a = some k → PlainArgs k.wst ∧ PlainArgs k.rst
  queue : ∀ e ∈ r.queue, ∀ m : Nodes, e.wst.Ok m ∧ e.rst.Ok m

theorem PlainArgs.nil : PlainArgs [] := ⟨by simp, fun _ h => (by cases h)⟩

theorem Sig.Ok.empty (k : Kind) : ({ kind := k } : Sig).Ok := ⟨.nil, .nil, .nil, .nil⟩

theorem parseValue_plain (t : Str) : Plain (parseValue t) := ⟨rfl, rfl, rfl, rfl, rfl, rfl, rfl⟩

theorem PlainArgs.append {l : List Value} (h : PlainArgs l) (hl : l.length < maxArgs) (t : Str) :
    PlainArgs (l ++ [parseValue t]) := by
  unfold maxArgs at hl
  refine ⟨by simp; omega, fun v hv => ?_⟩
  rcases List.mem_append.mp hv with hv | hv
  · exact h.2 v hv
  · rw [List.mem_singleton.mp hv]; exact parseValue_plain t

theorem begin_ok : Reader.begin.Ok :=
  ⟨.empty .vector, ⟨.nil, .nil⟩, fun _ _ h => (by cases h), fun _ _ h => (by cases h), fun _ h => (by cases h)⟩

/-- Only these parts matter. -/
theorem Reader.Ok.of_same {r r' : Reader} (h : r.Ok) (h1 : r'.sig = r.sig) (h2 : r'.cast = r.cast)
    (h3 : r'.label = r.label) (h4 : r'.casts = r.casts) (h5 : r'.queue = r.queue) : r'.Ok :=
  ⟨by rw [h1]; exact h.sig, by rw [h2]; exact h.cast, by rw [h3]; exact h.labels, by rw [h4]; exact h.casts,
    by rw [h5]; exact h.queue⟩

theorem reject_ok {r : Reader} (h : r.Ok) (w : Complaint) : (r.reject w).Ok := h.of_same rfl rfl rfl rfl rfl

theorem Stack.empty_ok (m : Nodes) : Stack.empty.Ok m := ⟨rfl, fun _ h => (by cases h)⟩

theorem foldl_plain_ok (m : Nodes) {vs : List Value} (hv : PlainArgs vs) {s : Stack} (hs : s.Ok m)
    (h : s.size.toNat ≤ 2) : (vs.foldl rawPush s).Ok m := by
  have h1 := total_le vs
  have h2 := hv.1
  exact (foldl_rawPush_ok m vs s hs (fun v hm => (hv.2 v hm).tidy _) (by omega)).1

theorem routineEntry_ok (a : Short) {sig : Sig} (hs : sig.Ok) (n : Nat) (m : Nodes) :
    (routineEntry a sig n).wst.Ok m ∧ (routineEntry a sig n).rst.Ok m := by
  unfold routineEntry
  dsimp only
  refine ⟨foldl_plain_ok m hs.wstIn (Stack.empty_ok m) (by decide), ?_⟩
  split
  · have p := rawPush_ok (v := { short := true, address := true, ret := true }) (Stack.empty_ok m)
      (whole_tidy _ rfl rfl) (by decide)
    exact foldl_plain_ok m hs.rstIn p.stack (by decide)
  · exact foldl_plain_ok m hs.rstIn (Stack.empty_ok m) (by decide)

theorem mark_ok {r : Reader} (h : r.Ok) (a : Short) {sig : Sig} (hs : sig.Ok) : (r.mark a sig).Ok :=
  ⟨h.sig, h.cast, h.labels, h.casts, fun e he m => by
    rcases List.mem_cons.mp he with e1 | he
    · rw [e1]; exact routineEntry_ok a hs _ m
    · exact h.queue e he m⟩

theorem extend_ok {s : Sig} (h : s.Ok) (p : Place) (hl : (s.part p).length < maxArgs) (t : Str) :
    (s.extend p (parseValue t)).Ok := by
  cases p
  · exact ⟨h.wstIn.append hl t, h.rstIn, h.wstOut, h.rstOut⟩
  · exact ⟨h.wstIn, h.rstIn.append hl t, h.wstOut, h.rstOut⟩
  · exact ⟨h.wstIn, h.rstIn, h.wstOut.append hl t, h.rstOut⟩
  · exact ⟨h.wstIn, h.rstIn, h.wstOut, h.rstOut.append hl t⟩

theorem Reader.Ok.ite {p : Prop} [Decidable p] {a b : Reader} (ha : a.Ok) (hb : b.Ok) : (if p then a else b).Ok := by
  split <;> assumption

theorem signatureToken_ok {r : Reader} (h : r.Ok) (t : Str) : (signatureToken t r).Ok := by
  unfold signatureToken
  dsimp only
  have h1 : (if r.isSealed then r.reject .sealed else r).Ok := .ite (reject_ok h _) h
  generalize (if r.isSealed then r.reject .sealed else r) = r1 at *
  split
  · split
    · exact h1.of_same rfl rfl rfl rfl rfl
    · exact h1.of_same rfl rfl rfl rfl rfl
    · exact reject_ok h1 _
  · split
    · exact h1.of_same rfl rfl rfl rfl rfl
    · split
      · split
        · exact ⟨⟨h1.sig.wstIn, h1.sig.rstIn, h1.sig.wstOut, h1.sig.rstOut⟩, h1.cast, h1.labels, h1.casts, h1.queue⟩
        · exact ⟨⟨h1.sig.wstIn, h1.sig.rstIn, h1.sig.wstOut, h1.sig.rstOut⟩, h1.cast, h1.labels, h1.casts, h1.queue⟩
        · exact reject_ok h1 _
      · split
        · rename_i hl
          exact ⟨extend_ok h1.sig _ hl t, h1.cast, h1.labels, h1.casts, h1.queue⟩
        · exact reject_ok h1 _

theorem setLabel_ok {r : Reader} (h : r.Ok) (a : Short) {sig : Sig} (hs : sig.Ok) :
    ({ r with label := upd r.label a (some (some sig)) } : Reader).Ok :=
  ⟨h.sig, h.cast, fun b s hb => by
    dsimp only at hb
    by_cases e : b = a
    · rw [e, upd_same] at hb
      simp only [Option.some.injEq] at hb
      rw [← hb]; exact hs
    · rw [upd_other _ _ e] at hb
      exact h.labels b s hb, h.casts, h.queue⟩

theorem signatureEnd_ok {r : Reader} (h : r.Ok) : (signatureEnd r).Ok := by
  unfold signatureEnd
  split
  · dsimp only
    have h1 := setLabel_ok h r.curAddr h.sig
    exact .ite h1 (mark_ok h1 _ h.sig)
  · exact h.of_same rfl rfl rfl rfl rfl

theorem castToken_ok {r : Reader} (h : r.Ok) (t : Str) : (castToken t r).Ok := by
  unfold castToken
  dsimp only
  have h1 : (if r.isSealed then r.reject .sealed else r).Ok := .ite (reject_ok h _) h
  generalize (if r.isSealed then r.reject .sealed else r) = r1 at *
  split
  · split
    · exact h1.of_same rfl rfl rfl rfl rfl
    · exact reject_ok h1 _
  · split
    · exact h1.of_same rfl rfl rfl rfl rfl
    · split
      · exact reject_ok h1 _
      · split
        · split
          · rename_i hl
            exact ⟨h1.sig, ⟨h1.cast.1, h1.cast.2.append hl t⟩, h1.labels, h1.casts, h1.queue⟩
          · exact reject_ok h1 _
        · split
          · rename_i hl
            exact ⟨h1.sig, ⟨h1.cast.1.append hl t, h1.cast.2⟩, h1.labels, h1.casts, h1.queue⟩
          · exact reject_ok h1 _

theorem castEnd_ok {r : Reader} (h : r.Ok) : (castEnd r).Ok := by
  unfold castEnd
  split
  · refine ⟨h.sig, h.cast, h.labels, fun b k hb => ?_, h.queue⟩
    dsimp only at hb
    by_cases e : b = r.curAddr
    · rw [e, upd_same] at hb
      simp only [Option.some.injEq] at hb
      rw [← hb]; exact h.cast
    · rw [upd_other _ _ e] at hb
      exact h.casts b k hb
  · exact h.of_same rfl rfl rfl rfl rfl

theorem secondStage_ok {r : Reader} (h : r.Ok) (k : Handler) (t : Str) : (secondStage k t r).Ok := by
  unfold secondStage
  split
  · exact h
  · exact .ite (signatureToken_ok h t) (castToken_ok h t)

theorem stages_ok (k : Handler) : ∀ (ts : List Str) {r : Reader}, r.Ok →
    (ts.foldl (fun r t => secondStage k t r) r).Ok
  | [], _, h => h
  | t :: ts, _, h => stages_ok k ts (secondStage_ok h k t)

theorem buffer_ok {r : Reader} (h : r.Ok) (b : Bool) (k : Handler) (t : Str) : (buffer b k t r).Ok := by
  unfold buffer
  split
  · dsimp only
    have h1 : ({ r with place := .wstIn, isSealed := false, handler := some k } : Reader).Ok :=
      h.of_same rfl rfl rfl rfl rfl
    exact secondStage_ok (stages_ok k _ h1) k t
  · split
    · split
      · exact h.of_same rfl rfl rfl rfl rfl
      · exact h.of_same rfl rfl rfl rfl rfl
    · exact h.of_same rfl rfl rfl rfl rfl

theorem annotate_ok {r : Reader} (h : r.Ok) (t : Str) : (annotate t r).Ok := by
  unfold annotate
  split
  · exact h
  · dsimp only
    apply buffer_ok
    split
    · exact ⟨.empty .vector, h.cast, h.labels, h.casts, h.queue⟩
    · exact h
  · exact signatureToken_ok h t
  · dsimp only
    apply buffer_ok
    split
    · exact ⟨h.sig, ⟨.nil, .nil⟩, h.labels, h.casts, h.queue⟩
    · exact h
  · exact castToken_ok h t

theorem annotationEnd_ok {r : Reader} (h : r.Ok) : (annotationEnd r).Ok := by
  unfold annotationEnd
  split
  · exact h
  · exact (signatureEnd_ok h).of_same rfl rfl rfl rfl rfl
  · exact (castEnd_ok h).of_same rfl rfl rfl rfl rfl
  · exact h.of_same rfl rfl rfl rfl rfl

theorem handleComment_ok {r : Reader} (h : r.Ok) (i : SymInfo) : (handleComment i r).Ok := by
  unfold handleComment
  dsimp only
  refine .ite (.ite (.ite ?_ (.ite ?_ ?_)) h) (.ite (annotationEnd_ok h) (.ite (annotate_ok h _) ?_)) <;>
    exact h.of_same rfl rfl rfl rfl rfl

theorem ensure_ok {r : Reader} (h : r.Ok) (a : Short) : (r.ensure a).Ok := by
  unfold Reader.ensure
  split
  · exact h
  · refine ⟨h.sig, h.cast, fun b s hb => ?_, h.casts, h.queue⟩
    dsimp only at hb
    by_cases e : b = a
    · rw [e, upd_same] at hb; cases hb
    · rw [upd_other _ _ e] at hb
      exact h.labels b s hb

theorem handleCode_ok {r : Reader} (h : r.Ok) (a : Short) (i : SymInfo) : (handleCode a i r).Ok := by
  unfold handleCode
  dsimp only
  have h1 : (if i.type = .opcode then
      ({ r with lowCode := r.lowCode || decide (a.toNat < 256), curType := i.type, curGenerated := i.generated,
                curAddr := a, handler := none, hasCur := true } : Reader)
    else { r with lowCode := r.lowCode || decide (a.toNat < 256) }).Ok := by
    split <;> exact h.of_same rfl rfl rfl rfl rfl
  generalize (if i.type = .opcode then
      ({ r with lowCode := r.lowCode || decide (a.toNat < 256), curType := i.type, curGenerated := i.generated,
                curAddr := a, handler := none, hasCur := true } : Reader)
    else { r with lowCode := r.lowCode || decide (a.toNat < 256) }) = r1 at *
  split
  · split
    · exact h1.of_same rfl rfl rfl rfl rfl
    · exact h1.of_same rfl rfl rfl rfl rfl
  · exact h1.of_same rfl rfl rfl rfl rfl

theorem handleSymbol_ok {r : Reader} (h : r.Ok) (a : Short) (i : SymInfo) : (handleSymbol a i r).Ok := by
  unfold handleSymbol
  split
  · exact handleComment_ok h i
  · split
    · exact h
    · apply ensure_ok
      exact h.of_same rfl rfl rfl rfl rfl
  · exact handleCode_ok h a i
  · exact handleCode_ok h a i
  · exact handleCode_ok h a i
  · exact handleCode_ok h a i
  · exact h.of_same rfl rfl rfl rfl rfl
  · exact h

theorem readAll_ok (events : List Asm.Event) : (readAll events).Ok := by
  have key : ∀ (es : List Asm.Event) (r : Reader), r.Ok → (es.foldl (fun r e => match e with
      | .sym a i => handleSymbol a i r
      | _ => r) r).Ok := by
    intro es
    induction es with
    | nil => exact fun r h => h
    | cons e es ih =>
      intro r h
      apply ih
      cases e <;> first | exact h | exact handleSymbol_ok h _ _
  exact key events _ begin_ok

theorem finish_ok {r : Reader} (h : r.Ok) : r.finish.Ok := by
  unfold Reader.finish
  dsimp only
  have h1 := ensure_ok h 0x0100
  split
  · exact mark_ok (setLabel_ok h1 _ (.empty .vector)) _ (.empty .vector)
  · exact h1

/-- What the parsers deliver, for every report of the assembler. -/
theorem program_ok (rom : Short → Byte) (events : List Asm.Event) : ((readAll events).finish.program rom).Ok :=
  ⟨(finish_ok (readAll_ok events)).labels, (finish_ok (readAll_ok events)).casts⟩

theorem run_safe {r : Reader} (h : r.Ok) : Safe r.run :=
  ⟨⟨⟨List.nodup_nil, fun _ h => (by cases h), fun _ h => (by cases h), fun n hn => absurd hn (Nat.not_lt_zero n)⟩,
    Stack.empty_ok _, Stack.empty_ok _⟩, fun hk => (by cases hk), fun e he => h.queue e he _, rfl⟩

end Buxn.Chess
