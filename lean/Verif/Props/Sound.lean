import Verif.Spec.Sound
import Verif.Props.Safety
import Verif.Props.Restore
/-
C71: checkpoint files of unknown origin.
-/
namespace Verif.Props
open Verif.Model Verif.Spec Verif.Lemmas

theorem deadSpot_iff {body : List Instr} {pc : Nat} : ¬ DeadSpot body pc ↔ body[pc]? ≠ some .nop ∧ ¬ Gap body pc := by
  constructor
  · intro h
    refine ⟨fun k => h (.inl k), fun ⟨⟨a, b, k1⟩, x, i, k2, k3, k4⟩ => h (.inr ⟨⟨a, b, k1⟩, x, i, k2, k3, ?_⟩)⟩
    rcases k4 with k4 | rfl
    · cases i <;> first | trivial | cases k4
    · trivial
  · rintro ⟨h1, h2⟩ (k | ⟨⟨a, b, k1⟩, x, i, k2, k3, k4⟩)
    · exact h1 k
    · refine h2 ⟨⟨a, b, k1⟩, x, i, k2, k3, ?_⟩
      cases i <;> first | exact .inl rfl | exact .inr rfl | cases k4

theorem declLocals_sum (ls : List (Nat × Cls)) : (declLocals ls).length = (ls.map (·.1)).sum := by
  induction ls with
  | nil => rfl
  | cons p ls ih => simp only [declLocals, List.flatMap_cons, List.length_append, List.length_replicate, List.map_cons, List.sum_cons] at ih ⊢; omega

/-- the frame `restore` makes of a saved one -/
def back (i : Inst) (g : Nat) (f : FrameData) : Frame :=
  { func := g, locals := f.locals, n := f.n, labels := f.labels.reverse, enable := false, resultRegs := f.resultRegs,
    retRegs := f.retRegs, memPtr := i.ptr }

theorem back_at (i : Inst) (g : Nat) (f : FrameData) : (back i g f).at = savedPc f := by
  simp only [Frame.at, back, savedPc, List.head?_reverse]

theorem body_eq {P : Prog} {g : Nat} {t : FuncType} {code : Code} (h : P.funcs[g]? = some (.runtime t code)) : P.body g = code.body := by
  simp only [Prog.body, h]

theorem back_in {P : Prog} (hW : WinP P) {i : Inst} {g : Nat} {f : FrameData} {t : FuncType} {code : Code} {W : Cls → Nat}
    (hg : P.funcs[g]? = some (.runtime t code)) (ha : code.alloc = some W) (h : FrameSound t code W f) :
    FrameIn P t code W (back i g f) ∧ FrameLive P (back i g f) := by
  have hb := body_eq hg
  obtain ⟨W', hW'⟩ := hW g t code hg
  have e : W' = W := Option.some.inj (hW'.alloc.symm.trans ha)
  subst e
  have hd := deadSpot_iff.mp h.live
  refine ⟨⟨hg, hW', ?_, ?_, h.ret, h.results⟩, ⟨⟨t, code, hg⟩, ?_, ?_, ?_⟩⟩
  · rw [back_at]; exact hb ▸ hd.2
  · show f.locals.length = _
    rw [h.locals, nlocals, declLocals_sum]
  · rw [back_at]; exact hb ▸ h.pc
  · rw [back_at]; exact hb ▸ h.labels
  · rw [back_at]; exact hb ▸ hd.1

theorem frames_back {P : Prog} (hW : WinP P) {i : Inst} : ∀ (fs : List FrameData) (gs : List Nat) (os : List Offsets) (base top : Offsets)
    (accF : List Frame) (accO : List Offsets), FramesSound P base fs gs os top → Stacked P base accF accO →
    (∀ f ∈ accF, FrameLive P f) → ∃ rs, restoreFrames P i fs gs = some rs ∧ (∀ f ∈ rs.reverse ++ accF, FrameLive P f) ∧
      (∀ f ∈ rs, f.memPtr = i.ptr) ∧ Stacked P top (rs.reverse ++ accF) (os.reverse ++ accO)
  | [], [], [], base, top, accF, accO, h, hs, hl => by
    simp only [FramesSound] at h
    subst h
    exact ⟨[], rfl, by simpa using hl, by simp, by simpa using hs⟩
  | f :: fs, g :: gs, o :: os, base, top, accF, accO, h, hs, hl => by
    obtain ⟨rfl, t, code, W, hg, ha, hf, hr⟩ := h
    obtain ⟨h1, h2⟩ := back_in (i := i) hW hg ha hf
    obtain ⟨rs, k1, k2, k3, k4⟩ := frames_back hW (i := i) fs gs os _ top (back i g f :: accF) (o :: accO) hr (.cons h1 (fun _ => rfl) hs)
      (by intro x hx; exact (List.mem_cons.1 hx).elim (fun e => e ▸ h2) (hl x))
    refine ⟨back i g f :: rs, ?_, by simpa using k2, ?_, by simpa using k4⟩
    · rw [restoreFrames, if_pos (List.getElem?_eq_some_iff.mp hg).1, k1]; rfl
    · intro x hx
      exact (List.mem_cons.1 hx).elim (fun e => e ▸ rfl) (k3 x)
  | [], _ :: _, _, _, _, _, _, h, _, _ => by simp [FramesSound] at h
  | [], [], _ :: _, _, _, _, _, h, _, _ => by simp [FramesSound] at h
  | _ :: _, [], _, _, _, _, _, h, _, _ => by simp [FramesSound] at h
  | _ :: _, _ :: _, [], _, _, _, _, h, _, _ => by simp [FramesSound] at h

theorem restored_safe {S : Wasi} {P : Prog} (hW : WinP P) {lz : Lz} {i i' : Inst} {b rest : List Byte} {s : Snapshot} {st : Stacks}
    {w : S.W} (hd : decode b = some (s, rest)) (hs : Sound P s) (h : restore lz P i (some b) = (.ok st, i')) : Safe P (st.resume (S := S) i' w) := by
  simp only [restore, hd, restoreState] at h
  split at h
  · cases h
  · rename_i i1 h1
    split at h
    · obtain ⟨rs, k1, k2, k3, k4⟩ := frames_back hW (i := { i1 with globals := (restoreGlobals? i1.globals s.globals).1 }) _ _ _ _ _ [] []
        hs.frames .nil (by simp)
      rw [k1] at h
      obtain ⟨h2, rfl⟩ := Prod.mk.inj h
      cases h2
      simp only [List.append_nil] at k2 k4
      refine ⟨k2, k4, ?_, ?_⟩
      · show s.cached = match s.offsets.reverse with | [] => fun _ => 0 | o :: _ => o
        rw [hs.cached, ← List.head?_reverse]
        cases s.offsets.reverse <;> rfl
      · intro f fs hf
        have hf' : rs.reverse = f :: fs := hf
        exact k3 f (List.mem_reverse.mp (by rw [hf']; exact List.mem_cons_self))
    · cases h

/-- `restore` itself does nothing undefined, whatever the file contains. -/
theorem restore_defined (lz : Lz) (P : Prog) (i : Inst) (file : Option (List Byte)) : (restore lz P i file).1 ≠ .ub := by
  unfold restore
  split
  · nofun
  · split
    · nofun
    · unfold restoreState
      split
      · nofun
      · simp only
        split
        · split <;> nofun
        · nofun

/-- **C71** for files that make sense for the module (`Sound`, a condition on the bytes alone): whoever wrote them, and whatever
values of registers, locals, globals and memory they hold, running on from them has undefined behaviour only where the program
itself leaves linear memory or calls a host function that is undefined.  Missing: all other files, for which it is false
(`SoundEx.crafted_checkpoint_violated`); `restore` checks none of what `Sound` says except that the function indices exist. -/
theorem untrusted_checkpoint_partial {S : Wasi} {Q : SProg} {globals : List Cls} {E : Env} (hv : Validated Q globals)
    (hc : Q.compile globals = some E.P) {D : Dispatcher} (hD : IsD E D) {lz : Lz} {i i' : Inst} {file : Option (List Byte)} {st : Stacks}
    {w : S.W} (hr : restore lz E.P i file = (.ok st, i')) (hs : ∀ b s rest, file = some b → decode b = some (s, rest) → Sound E.P s)
    {en : Bool} {n : Nat} (h : (st.resume (S := S) i' w).run E D en n = some .ub) :
    ∃ m' f fs, Reach E D en { st.resume (S := S) i' w with frames := setFirstEnable en st.frames } m' ∧
      m'.frames = f :: fs ∧ (MemoryWrong E m' f ∨ HostWrong E D m' f) := by
  obtain ⟨b, s, rest, rfl, hd, -⟩ := (restore_ok_iff_partial lz E.P i file).mp ⟨st, i', hr⟩
  exact runLoop_ub hv hc hD n (setFirst_safe en (restored_safe (winP_of hv hc) hd (hs b s rest rfl hd) hr)) h

theorem framesSound_snoc {P : Prog} : ∀ (fs : List FrameData) (gs : List Nat) (os : List Offsets) (base mid : Offsets)
    {f : FrameData} {g : Nat} {t : FuncType} {code : Code} {W : Cls → Nat}, FramesSound P base fs gs os mid →
    P.funcs[g]? = some (.runtime t code) → code.alloc = some W → FrameSound t code W f →
    FramesSound P base (fs ++ [f]) (gs ++ [g]) (os ++ [mid]) (fun c => mid c + W c)
  | [], [], [], base, mid, f, g, t, code, W, h, hg, ha, hf => by
    simp only [FramesSound] at h
    subst h
    exact ⟨rfl, t, code, W, hg, ha, hf, rfl⟩
  | f :: fs, g :: gs, o :: os, base, mid, _, _, _, _, _, h, hg, ha, hf => by
    obtain ⟨rfl, t, code, W, h1, h2, h3, h4⟩ := h
    exact ⟨rfl, t, code, W, h1, h2, h3, framesSound_snoc fs gs os _ mid h4 hg ha hf⟩
  | [], _ :: _, _, _, _, _, _, _, _, _, h, _, _, _ => by simp [FramesSound] at h
  | [], [], _ :: _, _, _, _, _, _, _, _, h, _, _, _ => by simp [FramesSound] at h
  | _ :: _, [], _, _, _, _, _, _, _, _, h, _, _, _ => by simp [FramesSound] at h
  | _ :: _, _ :: _, [], _, _, _, _, _, _, _, h, _, _, _ => by simp [FramesSound] at h

theorem frameSound_of {P : Prog} {t : FuncType} {code : Code} {W : Cls → Nat} {f : Frame} (h : FrameIn P t code W f) (hl : FrameLive P f) :
    FrameSound t code W f.data := by
  have hb := body_eq h.fn
  have e : savedPc f.data = f.at := by simp only [savedPc, Frame.data, List.getLast?_reverse, Frame.at]
  refine ⟨?_, ?_, ?_, ?_, h.results, h.ret⟩
  · show f.locals.length = _
    rw [h.locals, nlocals, declLocals_sum]
  · rw [e]; exact hb ▸ hl.pc
  · rw [e]
    show LabelsAt code.body f.at f.labels.reverse.reverse
    rw [List.reverse_reverse]; exact hb ▸ hl.labels
  · rw [e]; exact deadSpot_iff.mpr ⟨hb ▸ hl.alive, hb ▸ h.open_⟩

theorem framesSound_of {P : Prog} {len : Cls → Nat} {fs : List Frame} {os : List Offsets} (h : Stacked P len fs os)
    (hl : ∀ f ∈ fs, FrameLive P f) :
    FramesSound P (fun _ => 0) (fs.reverse.map Frame.data) (fs.reverse.map (·.func)) os.reverse len := by
  induction h with
  | nil => rfl
  | @cons len f fs o os t code W hf hlen _ ih =>
    have e : len = fun c => o c + W c := funext fun c => (hlen c).symm
    subst e
    simp only [List.reverse_cons, List.map_append, List.map_cons, List.map_nil]
    exact framesSound_snoc _ _ _ _ _ (ih fun x hx => hl x (List.mem_cons_of_mem _ hx)) hf.fn hf.win.alloc
      (frameSound_of hf (hl f List.mem_cons_self))

/-- Every checkpoint the program itself takes makes sense for it, at any point of any history. -/
theorem checkpoints_sound {S : Wasi} {Q : SProg} {globals : List Cls} {P : Prog} (hv : Validated Q globals) (hc : Q.compile globals = some P)
    {m : Machine S} (hm : Lives P m) {lz : Lz} {s : Snapshot} (h : m.snapshot lz P = .ok s) : Sound P s := by
  have hs := safe_of hv hc hm
  simp only [Machine.snapshot] at h
  cases hi : indices P m.frames.reverse with
  | ok ks =>
    rw [hi] at h
    cases h
    refine ⟨?_, ?_⟩
    · show FramesSound P _ (m.frames.reverse.map Frame.data) ks m.rf.frames.reverse m.rf.lens
      rw [(indices_ok hi).1]
      exact framesSound_of hs.stack hs.live
    · show m.rf.cached = (m.rf.frames.reverse.getLast?).getD _
      rw [List.getLast?_reverse, hs.cache]
      cases m.rf.frames <;> rfl
  | trap e => rw [hi] at h; cases h
  | panic => rw [hi] at h; cases h
  | ub => rw [hi] at h; cases h

end Verif.Props
