import Verif.Devices.FileOps
/-!
# What the file device does to the file system (used by C74)

The log of the calls tells all that happened to the file system: its state is the one that these calls lead to.
-/
namespace Buxn.File
variable {σ : Type}

/-! ## Specification -/

/-- A call with its result takes the file system from one state to another. -/
def Call.Does (H : Host σ) (s : σ) (c : Call) (t : σ) : Prop :=
  match c with
  | .stat p r => H.stat p s = (r, t)
  | .fopen p m r => H.fopen p m s = (r, t)
  | .fclose h => H.fclose h s = t
  | .opendir p r => H.opendir p s = (r, t)
  | .closedir h => H.closedir h s = t
  | .fread h n d => ∃ r, H.fread h n s = (r, t) ∧ d = r.take n
  | .fwrite h d n => ∃ r, H.fwrite h d s = (r, t) ∧ n = min r d.length
  | .readdir h r => H.readdir h s = (r, t)
  | .delete p r => H.delete p s = (r, t)

/-- So does a sequence of calls. -/
inductive Performs (H : Host σ) : σ → List Call → σ → Prop
  | nil (s : σ) : Performs H s [] s
  | cons {s t u : σ} {c : Call} {l : List Call} : c.Does H s t → Performs H t l u → Performs H s (c :: l) u

theorem Performs.append {H : Host σ} {s t u : σ} {a b : List Call} (h1 : Performs H s a t) (h2 : Performs H t b u) :
    Performs H s (a ++ b) u := by
  induction h1 with
  | nil => exact h2
  | cons hc _ ih => exact .cons hc (ih h2)

/-! ## The device -/

/-- The calls between two moments are in the log and lead from one state of the file system to the other. -/
def Made (H : Host σ) (w w' : W σ) : Prop := ∃ calls, w'.log = w.log ++ calls ∧ Performs H w.host calls w'.host

theorem Made.same (H : Host σ) {w w' : W σ} (h1 : w'.log = w.log) (h2 : w'.host = w.host) : Made H w w' :=
  ⟨[], by rw [h1, List.append_nil], by rw [h2]; exact .nil _⟩

theorem Made.trans {H : Host σ} {w w1 w2 : W σ} (h1 : Made H w w1) (h2 : Made H w1 w2) : Made H w w2 := by
  obtain ⟨a, a1, a2⟩ := h1
  obtain ⟨b, b1, b2⟩ := h2
  exact ⟨a ++ b, by rw [b1, a1, List.append_assoc], a2.append b2⟩

theorem Made.dev {H : Host σ} {w w1 w2 : W σ} (h : Made H w w1) (h1 : w2.log = w1.log) (h2 : w2.host = w1.host) : Made H w w2 :=
  h.trans (.same H h1 h2)

theorem Made.one {H : Host σ} {w w' : W σ} (c : Call) (h1 : w'.log = w.log ++ [c]) (h2 : c.Does H w.host w'.host) : Made H w w' :=
  ⟨[c], h1, .cons h2 (.nil _)⟩

theorem made_stat (H : Host σ) (p : Path) (w : W σ) : Made H w (callStat H p w).2 := .one _ rfl rfl
theorem made_fopen (H : Host σ) (p : Path) (m : Mode) (w : W σ) : Made H w (callFopen H p m w).2 := .one _ rfl rfl
theorem made_fclose (H : Host σ) (h : Hnd) (w : W σ) : Made H w (callFclose H h w) := .one _ rfl rfl
theorem made_opendir (H : Host σ) (p : Path) (w : W σ) : Made H w (callOpendir H p w).2 := .one _ rfl rfl
theorem made_closedir (H : Host σ) (h : Hnd) (w : W σ) : Made H w (callClosedir H h w) := .one _ rfl rfl
theorem made_fread (H : Host σ) (h : Hnd) (n : Nat) (w : W σ) : Made H w (callFread H h n w).2 := .one _ rfl ⟨_, rfl, rfl⟩
theorem made_fwrite (H : Host σ) (h : Hnd) (d : List Byte) (w : W σ) : Made H w (callFwrite H h d w).2 := .one _ rfl ⟨_, rfl, rfl⟩
theorem made_readdir (H : Host σ) (h : Hnd) (w : W σ) : Made H w (callReaddir H h w).2 := .one _ rfl rfl
theorem made_delete (H : Host σ) (p : Path) (w : W σ) : Made H w (callDelete H p w).2 := .one _ rfl rfl

theorem made_store (H : Host σ) {memSize a : Nat} {l : List Byte} {w w' : W σ} (h : store memSize a l w = .ok w') : Made H w w' := by
  unfold store at h
  split at h
  · cases h; exact .same H rfl rfl
  · cases h

theorem made_closeForMode (H : Host σ) (mode : Mode) (w : W σ) : Made H w (closeForMode H mode w) := by
  unfold closeForMode
  split
  · exact .same H rfl rfl
  · dsimp only
    split
    · split
      · exact .same H rfl rfl
      · split
        · exact (made_fclose H _ w).dev rfl rfl
        · split
          · exact (made_closedir H _ w).dev rfl rfl
          · exact .same H rfl rfl
    · exact .same H rfl rfl

theorem made_openForMode (H : Host σ) {memSize : Nat} {ports : Fin 16 → Byte} {mode : Mode} {w w' : W σ}
    (h : openForMode H memSize ports mode w = .ok w') : Made H w w' := by
  unfold openForMode at h
  split at h
  · cases h; exact .same H rfl rfl
  · simp only [bind, Except.bind, pure, Except.pure] at h
    split at h
    · cases h
    · split at h
      · cases h; exact .same H rfl rfl
      · rename_i path _
        cases h
        have h1 := made_stat H path w
        refine Made.trans (h1.dev (w2 := { (callStat H path w).2 with dev := { (callStat H path w).2.dev with stat := (callStat H path w).1 } }) rfl rfl) ?_
        generalize hv : { (callStat H path w).2 with dev := { (callStat H path w).2.dev with stat := (callStat H path w).1 } } = v
        generalize (callStat H path w).1.type = ty
        cases ty with
        | regular => exact (made_fopen H path mode v).dev rfl rfl
        | directory => exact (made_opendir H path v).dev rfl rfl
        | invalid =>
          by_cases hm : mode ≠ Mode.read
          · refine (made_fopen H path mode v).dev ?_ ?_ <;> simp only [if_pos hm]
          · refine Made.same H ?_ ?_ <;> simp only [if_neg hm] <;> rw [← hv]

theorem made_setMode (H : Host σ) {memSize : Nat} {ports : Fin 16 → Byte} {mode : Mode} {w w' : W σ}
    (h : setMode H memSize ports mode w = .ok w') : Made H w w' :=
  (made_closeForMode H mode w).trans (made_openForMode H h)

theorem made_refill (H : Host σ) {file : Hnd} {w w' : W σ} {b : Bool} (h : refill H file w = .ok (b, w')) : Made H w w' := by
  unfold refill at h
  dsimp only at h
  have h0 : Made H w { w with dev := { w.dev with pos := 0, len := 0 } } := .same H rfl rfl
  generalize { w with dev := { w.dev with pos := 0, len := 0 } } = v at h h0
  have h1 := made_readdir H file v
  generalize callReaddir H file v = x at h h1
  obtain ⟨r, v'⟩ := x
  cases r with
  | none => cases h; exact h0.trans h1
  | some e =>
    obtain ⟨st, name⟩ := e
    dsimp only at h
    split at h
    · cases h; exact (h0.trans h1).dev rfl rfl
    · split at h
      · cases h; exact (h0.trans h1).dev rfl rfl
      · cases h

theorem made_dirLoop (H : Host σ) {memSize : Nat} {file : Hnd} {fuel addr length total : Nat} {w w' : W σ} {n : Nat}
    (h : dirLoop H memSize file fuel addr length total w = .ok (n, w')) : Made H w w' := by
  induction fuel generalizing addr length total w with
  | zero => cases h; exact .same H rfl rfl
  | succ fuel ih =>
    unfold dirLoop at h
    split at h
    · simp only [bind, Except.bind, pure, Except.pure] at h
      have h1 : ∀ r, (if w.dev.pos ≥ w.dev.len then refill H file w else Except.ok (true, w)) = .ok r → Made H w r.2 := by
        intro r hr
        split at hr
        · exact made_refill H (b := r.1) hr
        · cases hr; exact .same H rfl rfl
      generalize (if w.dev.pos ≥ w.dev.len then refill H file w else Except.ok (true, w)) = x at h h1
      cases x with
      | error u => cases h
      | ok r =>
        obtain ⟨go, v⟩ := r
        have h2 : Made H w v := h1 _ rfl
        dsimp only at h
        cases go with
        | false => cases h; exact h2
        | true =>
          rw [if_pos rfl] at h
          generalize (if length < (v.dev.len + 65536 - v.dev.pos) % 65536 then length else (v.dev.len + 65536 - v.dev.pos) % 65536) = k at h
          by_cases hb : v.dev.pos + k ≤ DIR_BUF
          · rw [if_pos hb] at h
            cases hs : store memSize addr (slice v.dev.buf v.dev.pos k) v with
            | error u => rw [hs] at h; cases h
            | ok v' =>
              rw [hs] at h
              exact (h2.trans ((made_store H hs).dev (w2 := { v' with dev := { v'.dev with pos := (v'.dev.pos + k) % 65536 } }) rfl rfl)).trans (ih h)
          · rw [if_neg hb] at h
            cases h
    · cases h; exact .same H rfl rfl

theorem made_readLoop (H : Host σ) {memSize : Nat} {file : Hnd} {fuel addr length total : Nat} {w w' : W σ} {n : Nat}
    (h : readLoop H memSize file fuel addr length total w = .ok (n, w')) : Made H w w' := by
  induction fuel generalizing addr length total w with
  | zero => cases h; exact .same H rfl rfl
  | succ fuel ih =>
    unfold readLoop at h
    split at h
    · simp only [bind, Except.bind, pure, Except.pure] at h
      have h1 := made_fread H file length w
      generalize callFread H file length w = x at h h1
      obtain ⟨data, v⟩ := x
      dsimp only at h
      split at h
      · cases h
      · rename_i hs
        have h2 := h1.trans (made_store H hs)
        split at h
        · cases h; exact h2
        · exact h2.trans (ih h)
    · cases h; exact .same H rfl rfl

theorem made_writeLoop (H : Host σ) {memSize : Nat} {file : Hnd} {fuel addr length total : Nat} {w w' : W σ} {n : Nat}
    (h : writeLoop H memSize file fuel addr length total w = .ok (n, w')) : Made H w w' := by
  induction fuel generalizing addr length total w with
  | zero => cases h; exact .same H rfl rfl
  | succ fuel ih =>
    unfold writeLoop at h
    split at h
    · split at h
      · have h1 := made_fwrite H file (slice w.mem addr length) w
        generalize callFwrite H file (slice w.mem addr length) w = x at h h1
        obtain ⟨k, v⟩ := x
        dsimp only at h
        split at h
        · cases h; exact h1
        · exact h1.trans (ih h)
      · cases h
    · cases h; exact .same H rfl rfl

theorem made_opStat (H : Host σ) {memSize : Nat} {ports : Fin 16 → Byte} {w w' : W σ}
    (h : opStat H memSize ports w = .ok w') : Made H w w' := by
  unfold opStat at h
  simp only [bind, Except.bind, pure, Except.pure] at h
  split at h
  · split at h
    · cases h
    · rename_i hs
      cases h
      exact (made_store H hs).dev rfl rfl
  · split at h
    · cases h
    · split at h
      · rename_i path _
        split at h
        · cases h
        · rename_i hs
          cases h
          exact (made_stat H path w).trans ((made_store H hs).dev rfl rfl)
      · cases h; exact .same H rfl rfl

theorem made_opDelete (H : Host σ) {memSize : Nat} {ports : Fin 16 → Byte} {w w' : W σ}
    (h : opDelete H memSize ports w = .ok w') : Made H w w' := by
  unfold opDelete at h
  simp only [bind, Except.bind, pure, Except.pure] at h
  split at h
  · cases h
  · split at h
    · rename_i path _
      cases h
      exact (made_delete H path w).dev rfl rfl
    · cases h; exact .same H rfl rfl

theorem made_opName (H : Host σ) (w : W σ) : Made H w (opName H w) := by
  unfold opName
  split
  · rename_i hd _
    cases w.dev.stat.type with
    | regular => exact (made_fclose H hd w).dev rfl rfl
    | directory => exact (made_closedir H hd w).dev rfl rfl
    | invalid => exact .same H rfl rfl
  · exact .same H rfl rfl

theorem made_opRead (H : Host σ) {memSize : Nat} {ports : Fin 16 → Byte} {w w' : W σ}
    (h : opRead H memSize ports w = .ok w') : Made H w w' := by
  unfold opRead at h
  simp only [bind, Except.bind, pure, Except.pure] at h
  split at h
  · cases h
  · rename_i v hv
    have h1 := made_setMode H hv
    split at h
    · cases h
    · rename_i r hr
      cases h
      obtain ⟨n, u⟩ := r
      refine Made.dev (w1 := u) (h1.trans ?_) rfl rfl
      split at hr
      · cases hr; exact .same H rfl rfl
      · split at hr
        · exact made_dirLoop H hr
        · exact made_readLoop H hr
        · cases hr; exact .same H rfl rfl

theorem made_opWrite (H : Host σ) {memSize : Nat} {ports : Fin 16 → Byte} {w w' : W σ}
    (h : opWrite H memSize ports w = .ok w') : Made H w w' := by
  unfold opWrite at h
  simp only [bind, Except.bind, pure, Except.pure] at h
  split at h
  · cases h
  · rename_i v hv
    have h1 := made_setMode H hv
    split at h
    · split at h
      · split at h
        · cases h
        · rename_i hr
          cases h
          exact (h1.trans (made_writeLoop H hr)).dev rfl rfl
      · cases h; exact h1.dev rfl rfl
    · cases h; exact h1.dev rfl rfl

theorem made_deo (H : Host σ) {memSize : Nat} {ports : Fin 16 → Byte} {port : Fin 16} {w w' : W σ}
    (h : deo H memSize ports port w = .ok w') : Made H w w' := by
  unfold deo at h
  split at h
  · exact made_opStat H h
  split at h
  · exact made_opDelete H h
  split at h
  · cases h; exact made_opName H w
  split at h
  · exact made_opRead H h
  split at h
  · exact made_opWrite H h
  · cases h; exact .same H rfl rfl

/-- A write of the guest: no undefined behaviour, the calls obey the discipline and lead to the new state of the file system. -/
theorem guestOp_performs (H : Host σ) (memSize : Nat) (hms : 65536 ≤ memSize) (op : Op) (s : Slot) (w : W σ) (hi : Inv s w) :
    ∃ w' s' calls, guestOp H memSize op w = .ok w' ∧ w'.log = w.log ++ calls ∧ s.run calls = some s' ∧ Inv s' w' ∧
      Performs H w.host calls w'.host := by
  obtain ⟨w', s', calls, a1, a2, a3, a4⟩ := guestOp_ok H memSize hms op s w hi
  obtain ⟨calls', b1, b2⟩ := made_deo H a1
  have b1 : w'.log = w.log ++ calls' := b1
  have : calls' = calls := List.append_cancel_left (b1.symm.trans a2)
  subst this
  exact ⟨w', s', calls', a1, a2, a3, a4, b2⟩

end Buxn.File
