import Verif.Lemmas.Accept
import Verif.Lemmas.File
/-
A properly bracketed body is never rejected with an error: what the preprocessor cannot translate makes it panic.
-/
namespace Verif.Lemmas
open Verif.Model Verif.Spec Verif.Props

/-- are the brackets balanced; the stack tells which open ones may still have an `else` -/
def bal : List Bool → List WOp → Bool
  | _, [] => false
  | s, .block _ :: r => bal (false :: s) r
  | s, .loop _ :: r => bal (false :: s) r
  | s, .ite _ :: r => bal (true :: s) r
  | true :: s, .els :: r => bal (false :: s) r
  | _, .els :: _ => false
  | _ :: s, .fin :: r => bal s r
  | [], .fin :: r => r.isEmpty
  | s, _ :: r => bal s r

theorem bal_plain {o : WOp} (h : isBracket o = false) (s : List Bool) (r : List WOp) : bal s (o :: r) = bal s r := by
  cases o <;> first | rfl | cases h | (cases s <;> rfl)

theorem bal_flat : ∀ (w : WSeq) (s : List Bool) (r : List WOp), w.Proper → bal s (w.flat ++ r) = bal s r
  | .done, _, _, _ => rfl
  | .op o k, s, r, h => by
    rw [WSeq.flat, List.cons_append, bal_plain h.1, bal_flat k s r h.2]
  | .block bt b k, s, r, h => by
    simp only [WSeq.flat, List.cons_append, bal, List.append_assoc]
    rw [bal_flat b _ _ h.1]; simp only [bal]
    exact bal_flat k s r h.2
  | .loop bt b k, s, r, h => by
    simp only [WSeq.flat, List.cons_append, bal, List.append_assoc]
    rw [bal_flat b _ _ h.1]; simp only [bal]
    exact bal_flat k s r h.2
  | .ite bt b k, s, r, h => by
    simp only [WSeq.flat, List.cons_append, bal, List.append_assoc]
    rw [bal_flat b _ _ h.1]; simp only [bal]
    exact bal_flat k s r h.2
  | .itee bt t e k, s, r, h => by
    simp only [WSeq.flat, List.cons_append, bal, List.append_assoc]
    rw [bal_flat t _ _ h.1]; simp only [bal]
    rw [bal_flat e _ _ h.2.1]; simp only [bal]
    exact bal_flat k s r h.2.2

/-- can it still have an `else` -/
def mayElse (x : Nat × Bool × Option Nat) : Bool := x.2.1 && x.2.2.isNone

/-- the rest of the stream closes what is open, the skipped brackets first -/
def Opened (st : CS) (rest : List WOp) : Prop :=
  (rest = [] ∧ st.mapCtl = []) ∨ ∃ ds : List Bool, ds.length = st.dead - 1 ∧ bal (ds ++ st.mapCtl.map mayElse) rest = true

theorem opened_plain {K : FnCtx} {st st' : CS} {o : WOp} {rest rest' : List WOp} (hb : isBracket o = false) (hd : st.dead = 0)
    (hi : Opened st (o :: rest)) (h : compOp K st o rest = some (st', rest')) : Opened st' rest' := by
  have hp := compOp_plain hb h
  rcases hi with ⟨h0, _⟩ | ⟨ds, hl, hbal⟩
  · cases h0
  · right
    rw [bal_plain hb] at hbal
    have hds : ds = [] := List.length_eq_zero_iff.mp (by omega)
    subst hds
    refine ⟨[], ?_, ?_⟩
    · rcases hp.dead with e | e <;> rw [e] <;> simp [hd]
    · rw [hp.same.mapCtl]
      rcases hp.rest with e | ⟨i, e⟩
      · rw [e]; exact hbal
      · rw [e, bal_plain rfl] at hbal; exact hbal

theorem compOp_bracket {K : FnCtx} {st : CS} {o : WOp} {rest : List WOp} (hb : isBracket o = true) (hd : st.dead = 0)
    (hbal : bal (st.mapCtl.map mayElse) (o :: rest) = true) :
    ∃ st' , compOp K st o rest = some (st', rest) ∧ Opened st' rest := by
  cases o <;> simp only [isBracket, Bool.false_eq_true] at hb
  case block bt => exact ⟨_, rfl, .inr ⟨[], by simp [openBlock, CS.emit, hd], hbal⟩⟩
  case loop bt => exact ⟨_, rfl, .inr ⟨[], by simp [openBlock, CS.emit, hd], hbal⟩⟩
  case ite bt => exact ⟨_, rfl, .inr ⟨[], by simp [openBlock, CS.emit, hd], hbal⟩⟩
  case els =>
    simp only [compOp]
    cases hm : st.mapCtl with
    | nil => rw [hm] at hbal; simp [bal] at hbal
    | cons x m =>
      rw [hm] at hbal
      obtain ⟨s, i, e⟩ := x
      cases i with
      | false => simp [bal, mayElse] at hbal
      | true =>
        cases e with
        | some e => simp [bal, mayElse] at hbal
        | none =>
          refine ⟨_, rfl, .inr ⟨[], by simp [CS.emit, hd], ?_⟩⟩
          simpa [bal, mayElse, CS.emit] using hbal
  case fin =>
    have hm' : (compEnd K st).mapCtl = st.mapCtl := rfl
    have hd' : (compEnd K st).dead = st.dead := rfl
    simp only [compOp]
    cases hm : st.mapCtl with
    | nil =>
      rw [hm] at hbal
      simp only [List.map_nil, bal] at hbal
      have hr : rest = [] := by simpa using hbal
      subst hr
      have e : closeMaps (compEnd K st) st.code.length [] = some (compEnd K st) := by
        unfold closeMaps; rw [hm', hm]; rfl
      exact ⟨compEnd K st, by rw [e]; rfl, .inl ⟨rfl, hm'.trans hm⟩⟩
    | cons x m =>
      rw [hm] at hbal
      obtain ⟨s, i, e⟩ := x
      have e : ∃ y, closeMaps (compEnd K st) st.code.length rest = some y ∧ y.mapCtl = m ∧ y.dead = 0 := by
        unfold closeMaps; rw [hm', hm]; exact ⟨_, rfl, rfl, hd'.trans hd⟩
      obtain ⟨y, e, e1, e2⟩ := e
      refine ⟨y, by rw [e]; rfl, .inr ⟨[], by rw [e2]; rfl, ?_⟩⟩
      rw [e1]
      simpa [bal] using hbal

theorem deadNext_pos {d : Nat} {o : WOp} (hb : isBracket o = false) : deadNext d o = d := by
  cases o <;> first | rfl | cases hb

theorem not_err {K : FnCtx} : ∀ {n : Nat} {st : CS} {ops : List WOp}, ops.length ≤ n → Opened st ops → compRunD K false n st ops ≠ .err
  | n, st, [], _, hi => by
    rcases hi with ⟨_, h⟩ | ⟨ds, _, h⟩
    · simp [compRunD, h]
    · simp [bal] at h
  | 0, st, o :: rest, hn, _ => by simp at hn
  | n + 1, st, o :: rest, hn, hi => by
    have hn' : rest.length ≤ n := by simpa using hn
    have step : ∀ st' rest', compStep K st o rest = some (st', rest') → rest'.length ≤ rest.length := by
      intro st' rest' hs
      rcases compStep_rest hs with rfl | ⟨i, rfl⟩
      · exact Nat.le_refl _
      · rw [List.length_cons]; omega
    have go : ∀ st' rest', compStep K st o rest = some (st', rest') → Opened st' rest' → compRunD K false (n + 1) st (o :: rest) ≠ .err := by
      intro st' rest' hs ho
      unfold compRunD
      rw [hs]
      exact not_err (Nat.le_trans (step _ _ hs) hn') ho
    by_cases hd : st.dead = 0
    · have e : compStep K st o rest = compOp K st o rest := by unfold compStep; rw [if_pos hd]
      cases hb : isBracket o with
      | true =>
        rcases hi with ⟨h0, _⟩ | ⟨ds, hl, hbal⟩
        · cases h0
        · have hds : ds = [] := List.length_eq_zero_iff.mp (by omega)
          subst hds
          obtain ⟨st', h1, h2⟩ := compOp_bracket (K := K) hb hd hbal
          exact go _ _ (e.trans h1) h2
      | false =>
        cases hs : compStep K st o rest with
        | none =>
          unfold compRunD
          rw [hs]
          cases o <;> first | (intro h; cases h; done) | (cases hb; done)
        | some x =>
          obtain ⟨st', rest'⟩ := x
          exact go _ _ hs (opened_plain hb hd hi (e ▸ hs))
    · rcases hi with ⟨h0, _⟩ | ⟨ds, hl, hbal⟩
      · cases h0
      by_cases hp : 0 < deadNext st.dead o
      · have e : compStep K st o rest = some ({ st.emit .nop with dead := deadNext st.dead o }, rest) := by
          unfold compStep; rw [if_neg hd, if_pos hp]
        refine go _ _ e (.inr ?_)
        show ∃ ds : List Bool, ds.length = deadNext st.dead o - 1 ∧ bal (ds ++ st.mapCtl.map mayElse) rest = true
        cases hb : isBracket o with
        | false => rw [deadNext_pos hb, bal_plain hb] at *; exact ⟨ds, hl, hbal⟩
        | true =>
          cases o <;> simp only [isBracket, Bool.false_eq_true] at hb
          case block => exact ⟨false :: ds, by simp only [deadNext, List.length_cons]; omega, hbal⟩
          case loop => exact ⟨false :: ds, by simp only [deadNext, List.length_cons]; omega, hbal⟩
          case ite => exact ⟨true :: ds, by simp only [deadNext, List.length_cons]; omega, hbal⟩
          case els =>
            simp only [deadNext] at hp ⊢
            split at hp
            · omega
            · rename_i h1
              rw [if_neg h1]
              cases ds with
              | nil => simp only [List.length_nil] at hl; omega
              | cons x ds =>
                cases x with
                | false => simp [bal] at hbal
                | true => exact ⟨false :: ds, hl, hbal⟩
          case fin =>
            simp only [deadNext] at hp ⊢
            cases ds with
            | nil => simp only [List.length_nil] at hl; omega
            | cons x ds => exact ⟨ds, by simp only [List.length_cons] at hl; omega, by simpa [bal] using hbal⟩
      · have e : compStep K st o rest = compOp K { st with dead := 0 } o rest := by unfold compStep; rw [if_neg hd, if_neg hp]
        have hb : isBracket o = true := by
          cases hb : isBracket o with
          | true => rfl
          | false => rw [deadNext_pos hb] at hp; omega
        have hds : ds = [] := by
          apply List.length_eq_zero_iff.mp
          have : st.dead = 1 := by
            cases o <;> simp only [isBracket, Bool.false_eq_true] at hb <;> simp only [deadNext] at hp
            case els => split at hp <;> omega
            all_goals omega
          omega
        subst hds
        obtain ⟨st', h1, h2⟩ := compOp_bracket (K := K) (st := { st with dead := 0 }) hb rfl hbal
        exact go _ _ (e.trans h1) h2

theorem compRun_of_D {K : FnCtx} : ∀ {n : Nat} {st : CS} {ops : List WOp} {st' : CS}, compRunD K false n st ops = .ok st' →
    compRun K n st ops = some st'
  | n, st, [], st', h => by
    unfold compRunD at h
    unfold compRun
    simp only [Bool.false_eq_true, if_false] at h
    split at h
    · rename_i he; cases h; simp [he]
    · cases h
  | 0, st, _ :: _, st', h => by simp [compRunD] at h
  | n + 1, st, op :: rest, st', h => by
    unfold compRunD at h
    unfold compRun
    split at h
    · split at h <;> cases h
    · rename_i st1 rest1 he
      rw [he]
      exact compRun_of_D h

/-- a valid body with an unsupported operator makes the preprocessor panic -/
theorem body_panics {K : FnCtx} {w : WSeq} (hv : ValidFn K w) (hs : supported K w = false) :
    compRunD K false w.body.length (CS.init K) w.body = .panic := by
  cases h : compRunD K false w.body.length (CS.init K) w.body with
  | panic => rfl
  | err =>
    refine absurd h (not_err (Nat.le_refl _) (.inr ⟨[], rfl, ?_⟩))
    show bal [] (w.flat ++ [.fin]) = true
    rw [bal_flat w _ _ hv.proper]; rfl
  | ok fin =>
    have hrun := compRun_of_D h
    obtain ⟨st', n', hseq, hd', hrun'⟩ := comp_seq K fin w [.fin] (CS.init K) _ hv.proper ⟨[], Or.inl rfl⟩ (by simp [CS.init]) hrun
    obtain ⟨τ, hck, _⟩ := hv.typed
    rw [seq_supported hseq hck rfl] at hs
    cases hs

/-- the code section of a module of valid functions, one of them unsupported -/
theorem codes_panic {A : SMod} {I : MInfo} (hh : Hosts I) : ∀ {ds : List SDef} {pre : List ModFunc} {s : Model.PSt},
    (∀ d ∈ ds, ValidFn (fnCtx I (A.type d.type) d.locals) d.body) →
    (∃ d ∈ ds, supported (fnCtx I (A.type d.type) d.locals) d.body = false) →
    s.m.info = I → s.m.types = A.types → s.m.funcs = pre ++ ds.map (fun d => stub d.type) →
    s.cur = s.m.numImported + pre.length →
    parseFrom s (ds.map fun d => Payload.code d.locals d.body.body false) = .panic
  | [], pre, s, _, he, hI, ht, hf, hc => by obtain ⟨d, hd, _⟩ := he; cases hd
  | d :: ds, pre, s, hv, he, hI, ht, hf, hc => by
    simp only [List.map_cons] at hf
    have hget : s.m.funcs[pre.length]? = some (stub d.type) := by rw [hf]; simp
    have hctx : s.m.bodyCtx pre.length d.locals = fnCtx I (A.type d.type) d.locals := by
      unfold Modul.bodyCtx Modul.bodyType
      rw [hget, hI]
      simp only [Modul.typeAt, ht, fnCtx, SMod.type, stub]
    have hk : s.cur - s.m.numImported = pre.length := by omega
    cases hs : supported (fnCtx I (A.type d.type) d.locals) d.body with
    | false =>
      have hp := body_panics (hv d (by simp)) hs
      have h1 : decodePayload s (.code d.locals d.body.body false) = .panic := by
        simp only [decodePayload, decodeCode, hk, hctx, hp]
      simp only [List.map_cons, parseFrom, h1, Parsed.andThen]
    | true =>
      obtain ⟨code, hcomp⟩ := fn_some hh (hv d (by simp)) hs
      unfold compileFn at hcomp
      split at hcomp
      · cases hcomp
      · rename_i st hst
        split at hcomp
        · cases hcomp
        · rename_i body hb
          cases hcomp
          have hset := setCode_append hf { locals := d.locals, body := body, alloc := some st.alloc.finalize }
          have h1 : decodePayload s (.code d.locals d.body.body false) =
              .ok ⟨s.m.setCode pre.length { locals := d.locals, body := body, alloc := some st.alloc.finalize }, s.cur + 1⟩ := by
            simp only [decodePayload, decodeCode, hk, hctx, compRunD_ok hst, storeBody, hget, hb]
          simp only [List.map_cons, parseFrom, h1, Parsed.andThen]
          obtain ⟨hi1, hi2, hi3⟩ := info_setCode (M := s.m) (i := pre.length)
            (c := { locals := d.locals, body := body, alloc := some st.alloc.finalize })
          have he' : ∃ d ∈ ds, supported (fnCtx I (A.type d.type) d.locals) d.body = false := by
            obtain ⟨x, hx, hxs⟩ := he
            rcases List.mem_cons.mp hx with rfl | hx
            · rw [hs] at hxs; cases hxs
            · exact ⟨x, hx, hxs⟩
          exact codes_panic (A := A) hh (ds := ds)
            (pre := pre ++ [⟨d.type, { locals := d.locals, body := body, alloc := some st.alloc.finalize }⟩])
            (s := ⟨s.m.setCode pre.length { locals := d.locals, body := body, alloc := some st.alloc.finalize }, s.cur + 1⟩)
            (fun x hx => hv x (by simp [hx])) he' (hi1.trans hI) (hi2.trans ht) (by rw [hset]; simp [stub])
            (by
              have : (s.m.setCode pre.length { locals := d.locals, body := body, alloc := some st.alloc.finalize }).numImported
                  = s.m.numImported := by unfold Modul.numImported; rw [hi3]
              simp only [this, hc, List.length_append, List.length_singleton]; omega)

end Verif.Lemmas
