import Verif.Lemmas.CompSym
/-
Whole function bodies.
-/
namespace Verif.Lemmas
open Verif.Model Verif.Spec Verif.Props

/-- Compiling a valid, faithfully translated body: the code implements it. -/
theorem compile_symFn {K : FnCtx} {w : WSeq} {code : Code} {W : Cls → Nat} (hf : Faithful K w) (hc : compileFn K w.body = some code)
    (hW : code.alloc = some W) (hs : ∀ c, W c ≤ 65536) : code.locals = K.locals ∧ SymFn K code.body W w := by
  unfold compileFn at hc
  split at hc
  · cases hc
  · rename_i fin hrun
    split at hc
    · cases hc
    · rename_i body hpat
      cases hc
      simp only [Alloc.finalize, Option.some.injEq] at hW
      subst hW
      obtain ⟨st', n', hseq, hd', hrun'⟩ := comp_seq K fin w [.fin] (CS.init K) _ hf.valid.proper ⟨[], Or.inl rfl⟩ (by simp [CS.init]) hrun
      obtain ⟨n3, st3, r3, hc3, hrun3⟩ := compRun_close hd' (Or.inl rfl) hrun'
      obtain ⟨rfl, hd3⟩ := compOp_fin hc3
      have hfin : st3 = fin := by
        cases n3 <;> simp only [compRun] at hrun3 <;> split at hrun3 <;> cases hrun3 <;> rfl
      subst hfin
      have ext := hseq.ext
      have hm : st'.mapCtl = [] := ext.mapCtl
      have hct : st'.ctrl = [] := ext.ctrl
      have hsv : st'.saved = [] := ext.saved
      have e3 : st3 = compEnd K { st' with dead := 0 } := by
        simp only [compOp, Option.map_eq_some_iff] at hc3
        obtain ⟨x, hx, he⟩ := hc3
        cases he
        have : (compEnd K { st' with dead := 0 }).mapCtl = [] := hm
        simp only [closeMaps, this, List.isEmpty_nil, if_true, Option.some.injEq] at hx
        exact hx.symm
      have c3 : st3.code = st'.code ++ [.fin (st'.alloc.peekRegs K.results) []] := by
        rw [e3]; simp only [compEnd, CS.emit, endTypes, hct]
      have a3 : st3.alloc = st'.alloc := by rw [e3]; simp only [compEnd, CS.emit, endAlloc, hsv]
      have lat : Later st' st3 := by
        refine ⟨⟨_, c3⟩, fun s _ _ => by rw [e3]; rfl, fun s _ _ => by rw [e3]; rfl, fun c => by rw [a3]; exact Nat.le_refl _⟩
      have fx : Fx K st3 body := ⟨hpat, hs, hf.locals⟩
      have hlen : st3.code.length = st'.code.length + 1 := by rw [c3]; simp
      obtain ⟨τ, hck, hfit⟩ := hf.valid.typed
      have hi : InL (Lvl.top K) (CS.init K) := ⟨rfl, rfl, rfl, rfl, by intro x hx; simp [Lvl.top] at hx⟩
      have ha : AOk (Lvl.top K).b (Lvl.top K).bs (CS.init K).alloc [] :=
        ⟨rfl, by simp only [Lvl.top, dep_nil]; rfl, fun c => Nat.le_refl _⟩
      obtain ⟨out, ts', h1, h2, h3, h4, h5⟩ := (comp_sym fx hseq (v := Lvl.top K) ⟨[], Or.inl rfl⟩ lat (by omega) hf.uncrossed hf.plain hck .top
        hi ha rfl (PSt.of_nil rfl)).ex
      refine ⟨rfl, ⟨⟨st'.code.length, out, st'.alloc.peekRegs K.results, [], h1, ?_, ?_, ?_⟩⟩⟩
      · exact body_fixed fx (hi.ext ext) rfl ⟨[], by rw [c3]; simp⟩
      · rw [(patchFrom_get hpat).1, hlen]
      · intro os ho
        cases τ with
        | none => rw [h5 rfl] at ho; cases ho
        | some t =>
          obtain ⟨g1, rfl⟩ := h4 t rfl
          simp only [fits, decide_eq_true_eq] at hfit
          subst hfit
          rw [g1] at ho
          cases ho
          have s' : Small st'.alloc := by rw [← a3]; exact hs
          have := AOk.peekRegs (x := K.results) (ts := []) (by rw [List.append_nil]; exact h3) s'
          rw [dep_nil] at this
          rw [this]
          exact ⟨sops_rev _ _, sqr_cls _ _⟩

end Verif.Lemmas
