import Verif.Spec.Platforms
import Verif.Props.SessionMain
/-
C76: a program can be moved between machines.
-/
namespace Verif.Props
open Verif.Model Verif.Spec Verif.Lemmas

/-! ### Instructions that leave nothing to the machine -/

theorem un_anywhere {op : Op1} (h : op.choosy = false) (H H' : FloatHost) (a : op.src.Carrier) : op.eval H a = op.eval H' a := by
  cases op with
  | int s => cases s <;> rfl
  | eqz s => cases s <;> rfl
  | reinterpIF s => cases s <;> rfl
  | reinterpFI s => cases s <;> rfl
  | round s op => cases h
  | demote => cases h
  | promote => cases h
  | _ => rfl

theorem bin_anywhere {op : Op2} (h : op.choosy = false) (H H' : FloatHost) (a b : op.src.Carrier) : op.eval H a b = op.eval H' a b := by
  cases op with
  | int s => cases s <;> rfl
  | rel s => cases s <;> rfl
  | arith s op => cases h
  | _ => rfl

theorem step_anywhere {i : Instr} (h : i.choosy = false) (H H' : FloatHost) (P : Prog) (len : Nat) (s : VM) :
    step H P len s i = step H' P len s i := by
  cases i with
  | op1 op d a =>
    have e : ∀ a, op.eval H a = op.eval H' a := un_anywhere h H H'
    simp only [step, e]
  | op2 op d a b =>
    have e : ∀ a b, op.eval H a b = op.eval H' a b := bin_anywhere h H H'
    simp only [step, e]
  | _ => rfl

/-- the same environment on another machine -/
def onHost (E : Env) (H : FloatHost) : Env := { E with H := H }

theorem loop_anywhere {E : Env} {H : FloatHost} {code : List Instr} (h : ∀ i ∈ code, i.choosy = false) :
    ∀ (n : Nat) (d : DState), loopRun E code n d = loopRun (onHost E H) code n d
  | 0, _ => rfl
  | n + 1, d => by
    have e : poll (onHost E H) d = poll E d := rfl
    simp only [loopRun, e]
    split
    · rfl
    · rename_i d' _
      cases hc : code[d'.vm.pc]? with
      | none =>
        simp only
        split
        · split
          · rfl
          · exact loop_anywhere h n _
        · rfl
      | some i =>
        simp only
        have hs : step E.H E.P code.length d'.vm i = step (onHost E H).H (onHost E H).P code.length d'.vm i :=
          step_anywhere (h i (List.mem_of_getElem? hc)) _ _ _ _ _
        rw [hs]
        split
        · exact loop_anywhere h n _
        all_goals rfl

theorem chain_anywhere {E : Env} {H : FloatHost} {code : List Instr} (h : ∀ i ∈ code, i.choosy = false) :
    ∀ (n : Nat) (d : DState), tcoChain E code n d = tcoChain (onHost E H) code n d
  | 0, _ => rfl
  | n + 1, d => by
    simp only [tcoChain]
    cases hc : code[d.vm.pc]? with
    | none => rfl
    | some i =>
      simp only
      have hs : step E.H E.P code.length d.vm i = step (onHost E H).H (onHost E H).P code.length d.vm i :=
        step_anywhere (h i (List.mem_of_getElem? hc)) _ _ _ _ _
      rw [hs]
      split
      · rename_i vm _
        have e : poll (onHost E H) { d with vm := vm } = poll E { d with vm := vm } := rfl
        rw [e]
        split
        · rfl
        · exact chain_anywhere h n _
      all_goals rfl

theorem tco_anywhere {E : Env} {H : FloatHost} {code : List Instr} (h : ∀ i ∈ code, i.choosy = false) (n : Nat) (d : DState) :
    tcoRun E code n d = tcoRun (onHost E H) code n d := by
  have e : poll (onHost E H) d = poll E d := rfl
  simp only [tcoRun, e]
  split
  · rfl
  · split
    · rfl
    · exact chain_anywhere h n _

theorem build_anywhere {D : Env → Dispatcher} (hD : Build D) {E : Env} {H : FloatHost} {code : List Instr} (h : ∀ i ∈ code, i.choosy = false)
    (n : Nat) (d : DState) : D E n code d = D (onHost E H) n code d := by
  cases hD
  · exact loop_anywhere h n d
  · exact tco_anywhere h n d

/-! ### … make no difference to a process -/

theorem react_anywhere {S : Wasi} {E : Env} {H : FloatHost} {en : Bool} (m : Machine S) (f : Frame) :
    m.react (onHost E H) en f = m.react E en f := by
  funext x
  cases x with
  | yield y d => cases y <;> rfl
  | _ => rfl

theorem round_anywhere {S : Wasi} {D : Env → Dispatcher} (hD : Build D) {E : Env} (h : ∀ f, ∀ i ∈ E.P.body f, i.choosy = false) (H : FloatHost)
    (en : Bool) (n : Nat) (m : Machine S) : m.round E (D E) en n = m.round (onHost E H) (D (onHost E H)) en n := by
  unfold Machine.round
  cases m.frames with
  | nil => rfl
  | cons f fs =>
    simp only
    rw [build_anywhere hD (H := H) (h f.func), react_anywhere]
    rfl

theorem runLoop_anywhere {S : Wasi} {D : Env → Dispatcher} (hD : Build D) {E : Env} (h : ∀ f, ∀ i ∈ E.P.body f, i.choosy = false) (H : FloatHost)
    (en : Bool) (n : Nat) : ∀ (k : Nat) (m : Machine S), m.runLoop E (D E) en n k = m.runLoop (onHost E H) (D (onHost E H)) en n k
  | 0, _ => rfl
  | k + 1, m => by
    simp only [Machine.runLoop, round_anywhere hD h H en n m]
    split
    · rfl
    · exact runLoop_anywhere hD h H en n k _
    all_goals rfl

theorem process_anywhere {S : Wasi} {D : Env → Dispatcher} (hD : Build D) {E : Env} (h : ∀ f, ∀ i ∈ E.P.body f, i.choosy = false) (H : FloatHost)
    (lz : Lz) (en : Bool) (n : Nat) (old : Option (List Byte)) (io : Io) (m : Machine S) :
    m.process lz E (D E) en n old io = m.process lz (onHost E H) (D (onHost E H)) en n old io := by
  have e : m.run E (D E) en n = m.run (onHost E H) (D (onHost E H)) en n := runLoop_anywhere hD h H en n n _
  unfold Machine.process
  rw [e]
  rfl

theorem loaded_neutral {A : SMod} {H : FloatHost} {P : Prog} (hc : (A.source H).compile A.globalTypes = some P)
    (hn : Neutral A) (f : Nat) : ∀ i ∈ P.body f, i.choosy = false := by
  rcases body_or (P := P) f with e | ⟨t, code, hf, e⟩
  · rw [e]; nofun
  · obtain ⟨ls, b, h1, h2⟩ := compile_code hc hf
    rw [e]
    refine compile_choosy h2 ?_
    simp only [SMod.source, List.mem_append, List.mem_map] at h1
    rcases h1 with ⟨x, _, hx⟩ | ⟨d, hd, hx⟩
    · unfold hostFunc at hx
      split at hx <;> cases hx
    · cases hx
      exact hn d hd

/-- A process shows nothing of the machine it runs on, whatever it starts with — a call or a checkpoint. -/
theorem platform_does_not_show {S : Wasi} {T : FloatText} {lz : Lz} {A : SMod} {H : FloatHost} (h : A.WellFormed S H) {P : Prog}
    (hc : (A.source H).compile A.globalTypes = some P) (hn : Neutral A) (H₁ H₂ : FloatHost) (p : Process) (o : Options) (world : S.W) :
    p.run T lz H₁ (some A.file) o world = p.run T lz H₂ (some A.file) o world := by
  obtain ⟨fs, L, _, _, hload, rfl, _, _⟩ := load_ok h hc
  have key : ∀ (w : Bool) (m : Machine S), m.process lz (envOf H₁ p.atomics p.trig L.prog w) (p.D (envOf H₁ p.atomics p.trig L.prog w)) p.cr p.fuel p.old p.io =
      m.process lz (envOf H₂ p.atomics p.trig L.prog w) (p.D (envOf H₂ p.atomics p.trig L.prog w)) p.cr p.fuel p.old p.io := fun w m =>
    process_anywhere p.built (E := envOf H₁ p.atomics p.trig L.prog w) (fun f => loaded_neutral hc hn f) H₂ lz p.cr p.fuel p.old p.io m
  simp only [Process.run, command, hload, key]

/-- So a session that goes from machine to machine is one that stays where it is — anywhere. -/
theorem mixed_is_session {S : Wasi} {T : FloatText} {lz : Lz} {A : SMod} {H : FloatHost} (h : A.WellFormed S H) {P : Prog}
    (hc : (A.source H).compile A.globalTypes = some P) (hn : Neutral A) {o : Options} {world : S.W} {r : Res (Left S)}
    (hs : MixedSession T lz (some A.file) o world r) (H' : FloatHost) : Session T lz H' (some A.file) o world r := by
  induction hs with
  | last H p hp hr => exact .last p ((platform_does_not_show h hc hn H' H p _ _).trans hp) hr
  | move H p hp hl hb hs hlen _ ih => exact .move p ((platform_does_not_show h hc hn H' H p _ _).trans hp) hl hb hs hlen ih

/-- **C76** (for modules without the float operators whose NaN the machine chooses, and otherwise as in C54).  Let a program be
checkpointed any number of times and each time be continued on another machine, on which float operations may produce other
NaNs.  If it comes to an end, then a single undisturbed process on any one machine `H'` comes to an end too and shows the same,
and can show nothing else.
Missing from the full claim: modules that do float arithmetic (`nan_moved_violated`), and what is missing from C54. -/
theorem moved_between_machines_partial {S : Wasi} (hS : WasiKeepsSize S) {T : FloatText} {lz : Lz} {A : SMod} {H : FloatHost}
    (h : A.WellFormed S H) {P : Prog} (hc : (A.source H).compile A.globalTypes = some P) (hm : Movable (A.source H)) (hn : Neutral A)
    {o : Options} (ho : o.restore = none) {world : S.W} {r : Res (Left S)} (hs : MixedSession T lz (some A.file) o world r)
    (q : Process) (H' : FloatHost) :
    (∃ fuel r', ({ q.undisturbed with fuel := fuel }).run T lz H' (some A.file) o world = some r' ∧ seen r' = seen r) ∧
    (∀ fuel r', ({ q.undisturbed with fuel := fuel }).run T lz H' (some A.file) o world = some r' → seen r' = seen r) := by
  have k := session_transparent_partial hS h hc hm ho (mixed_is_session h hc hn hs H) q
  simp only [platform_does_not_show h hc hn H' H]
  exact k

end Verif.Props
