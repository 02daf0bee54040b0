import Verif.Spec.FileParts
import Verif.Lemmas.File
import Verif.Model.Command
import Verif.Props.Link
/-
C73: custom sections do not influence anything.  C74: exports only name things.
-/
namespace Verif.Props
open Verif.Model Verif.Spec

/-! ## C73 -/

theorem parse_custom : ∀ (ps : List Payload) (s : PSt), parseFrom s (withoutCustom ps) = parseFrom s ps
  | [], _ => rfl
  | p :: ps, s => by
    have ih := parse_custom ps
    cases p with
    | ignored => simp only [withoutCustom, parseFrom, decodePayload, Parsed.andThen]; exact ih s
    | _ => simp only [withoutCustom, parseFrom]; congr 1; funext s; exact ih s

/-- two files that differ only in custom sections are read alike, including where and how reading fails -/
theorem custom_parse {ps qs : List Payload} (h : withoutCustom ps = withoutCustom qs) : parseFile (some ps) = parseFile (some qs) := by
  show parseFrom ⟨.empty, 0⟩ ps = parseFrom ⟨.empty, 0⟩ qs
  rw [← parse_custom ps, ← parse_custom qs, h]

theorem custom_load {ps qs : List Payload} (h : withoutCustom ps = withoutCustom qs) : loadFile (some ps) = loadFile (some qs) := by
  unfold loadFile
  rw [custom_parse h]

/-- **C73** Two files that differ only in custom sections, wherever those are and however many there are, make the command do exactly
the same: with any options (`--restore` included), WASI world, old checkpoint file and file system behaviour, under any
dispatcher, whether or not the files are well formed. -/
theorem custom_sections_irrelevant {S : Wasi} (T : FloatText) (lz : Lz) (E : Prog → Bool → Env) (D : Env → Dispatcher) (fuel : Nat)
    {ps qs : List Payload} (h : withoutCustom ps = withoutCustom qs) (o : Options) (world : S.W) (old : Option (List Byte)) (io : Io) :
    command T lz E D fuel (some ps) o world old io = command T lz E D fuel (some qs) o world old io := by
  unfold command
  rw [custom_load h]

/-! ## C74 -/

/-- the state with other exports -/
def PSt.ex (s : PSt) (X : List (String × ExportTy)) : PSt := { s with m := { s.m with exports := X } }

/-- the same for an outcome -/
def Parsed.ex (X : List (String × ExportTy)) : Parsed → Parsed
  | .ok s => .ok (PSt.ex s X)
  | .err s => .err (PSt.ex s X)
  | .panic => .panic

theorem each_ex {α : Type} {f : PSt → α → Parsed} {X : List (String × ExportTy)} (h : ∀ s a, f (PSt.ex s X) a = Parsed.ex X (f s a)) :
    ∀ (as : List (Option α)) (s : PSt), each f (PSt.ex s X) as = Parsed.ex X (each f s as)
  | [], _ => rfl
  | none :: _, _ => rfl
  | some a :: as, s => by
    unfold each
    rw [h]
    cases f s a with
    | ok s' => exact each_ex h as s'
    | err s' => rfl
    | panic => rfl

theorem setCode_ex (M : Modul) (X : List (String × ExportTy)) (i : Nat) (c : Code) :
    Modul.setCode { M with exports := X } i c = { M.setCode i c with exports := X } := by
  unfold Modul.setCode
  cases M.funcs[i]? <;> rfl

theorem payload_ex (X : List (String × ExportTy)) {p : Payload} (hp : ∀ es, p ≠ .exports es) (s : PSt) :
    decodePayload (PSt.ex s X) p = Parsed.ex X (decodePayload s p) := by
  cases p with
  | version n => simp only [decodePayload]; split <;> rfl
  | types ts => exact each_ex (fun _ _ => rfl) ts s
  | imports is =>
    simp only [decodePayload]
    rw [each_ex]
    · cases each decodeImport s is <;> rfl
    · intro s a
      unfold decodeImport
      cases importDesc a.1 a.2.1 a.2.2 <;> rfl
  | funcs fs => exact each_ex (fun _ _ => rfl) fs s
  | tables ts =>
    refine each_ex (fun s a => ?_) ts s
    unfold decodeTable
    cases limits? a.1 <;> rfl
  | mems ms =>
    refine each_ex (fun s a => ?_) ms s
    unfold decodeMem
    cases limits? a <;> rfl
  | globals gs =>
    refine each_ex (fun s a => ?_) gs s
    unfold decodeGlobal
    split <;> rfl
  | exports es => exact absurd rfl (hp es)
  | start f => rfl
  | elems es =>
    refine each_ex (fun s a => ?_) es s
    unfold decodeElem
    cases elemItems a.1 with
    | none => rfl
    | some i => cases elemMode a.2 <;> rfl
  | code ls ops bad =>
    show decodeCode (PSt.ex s X) ls ops bad = Parsed.ex X (decodeCode s ls ops bad)
    have hc : (PSt.ex s X).m.bodyCtx ((PSt.ex s X).cur - (PSt.ex s X).m.numImported) ls = s.m.bodyCtx (s.cur - s.m.numImported) ls := rfl
    unfold decodeCode
    simp only [hc]
    cases compRunD (s.m.bodyCtx (s.cur - s.m.numImported) ls) bad ops.length (CS.init (s.m.bodyCtx (s.cur - s.m.numImported) ls)) ops with
    | ok st =>
      show storeBody (PSt.ex s X) (s.cur - s.m.numImported) ls st = Parsed.ex X (storeBody s (s.cur - s.m.numImported) ls st)
      unfold storeBody
      have hf : (PSt.ex s X).m.funcs[s.cur - s.m.numImported]? = s.m.funcs[s.cur - s.m.numImported]? := rfl
      rw [hf]
      cases s.m.funcs[s.cur - s.m.numImported]? with
      | none => rfl
      | some f =>
        cases hp : patchFrom st.ends st.elses st.code.length 0 [] st.code with
        | none => simp only [PSt.ex, setCode_ex, Parsed.ex]
        | some body => simp only [PSt.ex, setCode_ex, Parsed.ex]
    | err => rfl
    | panic => rfl
  | datas ds =>
    refine each_ex (fun s a => ?_) ds s
    unfold decodeData
    cases dataMode a.2 <;> rfl
  | ignored => rfl
  | bad => rfl

theorem exports_read : ∀ {es : List (Option (String × ExportTy))} {s s' : PSt}, each decodeExport s es = .ok s' →
    s' = PSt.ex s (s.m.exports ++ es.filterMap id)
  | [], s, s', h => by cases h; simp [PSt.ex]
  | none :: es, s, s', h => by cases h
  | some e :: es, s, s', h => by
    unfold each decodeExport at h
    split at h
    · cases h
    · have := exports_read (s := PSt.ex s (s.m.exports ++ [e])) h
      rw [this]
      simp [PSt.ex]

theorem ex_ex (s : PSt) (X Y : List (String × ExportTy)) : PSt.ex (PSt.ex s X) Y = PSt.ex s Y := rfl

/-- a file that is read to its end is read to its end without its exports, and gives the same module but for the exports -/
theorem parse_without (X : List (String × ExportTy)) : ∀ {ps : List Payload} {s s' : PSt}, parseFrom s ps = .ok s' →
    parseFrom (PSt.ex s X) (withoutExports ps) = .ok (PSt.ex s' X) ∧ s'.m.exports = s.m.exports ++ exportsOf ps
  | [], s, s', h => by cases h; exact ⟨rfl, by simp [exportsOf]⟩
  | p :: ps, s, s', h => by
    unfold parseFrom at h
    cases hd : decodePayload s p with
    | err s1 => rw [hd] at h; cases h
    | panic => rw [hd] at h; cases h
    | ok s1 =>
      rw [hd] at h
      obtain ⟨h1, h2⟩ := parse_without X (ps := ps) h
      by_cases hp : ∃ es, p = .exports es
      · obtain ⟨es, rfl⟩ := hp
        have := exports_read hd
        subst this
        refine ⟨h1, ?_⟩
        rw [h2]
        simp [PSt.ex, exportsOf]
      · have hp' : ∀ es, p ≠ .exports es := fun es he => hp ⟨es, he⟩
        have e1 : withoutExports (p :: ps) = p :: withoutExports ps := by
          cases p with
          | exports es => exact absurd rfl (hp' es)
          | _ => rfl
        have e2 : exportsOf (p :: ps) = exportsOf ps := by
          cases p with
          | exports es => exact absurd rfl (hp' es)
          | _ => rfl
        have hx := payload_ex s.m.exports hp' s
        have hs : PSt.ex s s.m.exports = s := rfl
        rw [hs, hd] at hx
        have hx' : s1 = PSt.ex s1 s.m.exports := by injection hx
        have he : s1.m.exports = s.m.exports := by rw [hx']; rfl
        rw [e1, e2]
        unfold parseFrom
        rw [payload_ex X hp' s, hd]
        exact ⟨h1, by rw [h2, he]⟩

/-- exports do not enter the instance -/
theorem instantiate_ex {M : Modul} {L : Loaded} (h : instantiate M = .ok L) :
    instantiate { M with exports := [] } = .ok { L with exports := [] } ∧ L.exports = M.exports := by
  unfold instantiate at h ⊢
  simp only [bind, Res.bind] at h ⊢
  cases h1 : linkImports M.imports <;> simp only [h1] at h ⊢ <;> try (cases h)
  rename_i imp
  cases h2 : initGlobals [] M.globals <;> simp only [h2] at h ⊢ <;> try (cases h)
  rename_i gl
  cases h3 : initElems (imp.length + M.funcs.length) gl (M.tables.map fun n => List.replicate n.toNat Ref.null) M.elems <;>
    simp only [h3] at h ⊢ <;> try (cases h)
  rename_i tb
  cases h4 : initDatas gl (M.mems.map fun p => Mem.new p.1 p.2) M.datas <;> simp only [h4] at h ⊢ <;> try (cases h)
  rename_i me
  split at h
  · cases h5 : replaceFuncs M.types M.funcs <;> simp only [h5] at h ⊢ <;> try (cases h)
    rename_i own
    split at h
    · cases h
      rename_i hst
      simp only [List.all_nil, if_true, hst]
      exact ⟨rfl, trivial⟩
    · cases h
  · cases h

/-- **C74** (instance) Two files that are read to their end, load, and differ only in what they export have the same program, the same
memory, globals, tables and segments, and offer WASI alike; each exports exactly what its export sections list. -/
theorem exports_only_name {ps qs : List Payload} (h : withoutExports ps = withoutExports qs) {s t : PSt} (hs : parseFile (some ps) = .ok s)
    (ht : parseFile (some qs) = .ok t) {L L' : Loaded} (hL : loadFile (some ps) = .ok L) (hL' : loadFile (some qs) = .ok L') :
    L.prog = L'.prog ∧ L.inst = L'.inst ∧ L.hasWasi = L'.hasWasi ∧ L.exports = exportsOf ps ∧ L'.exports = exportsOf qs := by
  obtain ⟨a1, a2⟩ := parse_without [] hs
  obtain ⟨b1, b2⟩ := parse_without [] ht
  rw [h] at a1
  have hst : PSt.ex s [] = PSt.ex t [] := by
    have := a1.symm.trans b1
    injection this
  unfold loadFile at hL hL'
  rw [hs] at hL
  rw [ht] at hL'
  cases hi : instantiate s.m <;> simp only [hi] at hL <;> cases hL
  cases hj : instantiate t.m <;> simp only [hj] at hL' <;> cases hL'
  obtain ⟨c1, c2⟩ := instantiate_ex hi
  obtain ⟨d1, d2⟩ := instantiate_ex hj
  have hm : ({ s.m with exports := [] } : Modul) = { t.m with exports := [] } := congrArg PSt.m hst
  rw [hm, d1] at c1
  injection c1 with c1
  have e1 := congrArg Loaded.prog c1
  have e2 := congrArg Loaded.inst c1
  have e3 := congrArg Loaded.hasWasi c1
  exact ⟨e1.symm, e2.symm, e3.symm, by rw [c2, a2]; rfl, by rw [d2, b2]; rfl⟩

/-- **C74** Adding, removing, renaming or reordering exports does not change what the command does, as long as the name to invoke still
means the same function: for every two files that are read to their end, load, differ only in their exports and agree on the first
export with the invoked name.  With `--restore` the exports do not matter at all. -/
theorem exports_irrelevant {S : Wasi} (T : FloatText) (lz : Lz) (E : Prog → Bool → Env) (D : Env → Dispatcher) (fuel : Nat)
    {ps qs : List Payload} (h : withoutExports ps = withoutExports qs) {s t : PSt} (hs : parseFile (some ps) = .ok s)
    (ht : parseFile (some qs) = .ok t) {L L' : Loaded} (hL : loadFile (some ps) = .ok L) (hL' : loadFile (some qs) = .ok L') (o : Options)
    (ho : o.restore = none → (exportsOf ps).find? (·.1 == o.invoke) = (exportsOf qs).find? (·.1 == o.invoke))
    (world : S.W) (old : Option (List Byte)) (io : Io) :
    command T lz E D fuel (some ps) o world old io = command T lz E D fuel (some qs) o world old io := by
  obtain ⟨h1, h2, h3, h4, h5⟩ := exports_only_name h hs ht hL hL'
  unfold command
  rw [hL, hL']
  simp only []
  cases hr : o.restore with
  | some saved => simp only []; rw [h1, h2, h3]
  | none =>
    have hf : L.exportFunc o.invoke = L'.exportFunc o.invoke := by
      unfold Loaded.exportFunc
      rw [h4, h5, ho hr]
    simp only []
    rw [hf, h1, h2, h3]

namespace PartsEx
open LinkEx

/-- module b with debugging information before, between and after its sections -/
def annotated : List Payload :=
  [.version 1, .ignored, .types [some ⟨[], [.i32]⟩, some ⟨[.i32], [.i32]⟩], .funcs [some 0, some 1],
   .globals [some (false, .i32, [.i32 7])], .ignored, .ignored, .exports [some ("get", .func 0), some ("twice", .func 1)],
   .code [] [.globalGet 0, .fin] false,
   .code [] [.localGet 0, .localGet 0, .bin (.int .s32 .add), .fin] false, .ignored]

example : withoutCustom annotated = withoutCustom fileB ∧ annotated.length = 11 := ⟨rfl, rfl⟩

/-- module b with its exports reordered and renamed, one added; `twice` stays what it was -/
def renamed : List Payload :=
  [.version 1, .types [some ⟨[], [.i32]⟩, some ⟨[.i32], [.i32]⟩], .funcs [some 0, some 1],
   .globals [some (false, .i32, [.i32 7])], .exports [some ("g", .global 0), some ("twice", .func 1), some ("read", .func 0)],
   .code [] [.globalGet 0, .fin] false,
   .code [] [.localGet 0, .localGet 0, .bin (.int .s32 .add), .fin] false]

/-- did reading reach the end -/
def readOk : Parsed → Bool
  | .ok _ => true
  | _ => false

/-- did loading succeed -/
def loadOk : Res Loaded → Bool
  | .ok _ => true
  | _ => false

theorem readOk_iff {r : Parsed} (h : readOk r = true) : ∃ s, r = .ok s := by
  cases r with
  | ok s => exact ⟨s, rfl⟩
  | _ => cases h

theorem loadOk_iff {r : Res Loaded} (h : loadOk r = true) : ∃ s, r = .ok s := by
  cases r with
  | ok s => exact ⟨s, rfl⟩
  | _ => cases h

/-- the hypotheses of `exports_irrelevant` are met by the two files, for `--invoke twice` -/
example : withoutExports renamed = withoutExports fileB ∧ (∃ s, parseFile (some renamed) = .ok s) ∧ (∃ s, parseFile (some fileB) = .ok s) ∧
    (∃ L, loadFile (some renamed) = .ok L) ∧ (∃ L, loadFile (some fileB) = .ok L) ∧
    (exportsOf renamed).find? (·.1 == "twice") = (exportsOf fileB).find? (·.1 == "twice") ∧ exportsOf renamed ≠ exportsOf fileB := by
  refine ⟨rfl, readOk_iff (by decide +kernel), readOk_iff (by decide +kernel), loadOk_iff (by decide +kernel), loadOk_iff (by decide +kernel),
    by decide +kernel, by decide +kernel⟩

/-- and not for `--invoke get`, which only one of them has -/
example : (exportsOf renamed).find? (·.1 == "get") ≠ (exportsOf fileB).find? (·.1 == "get") := by decide +kernel

end PartsEx

end Verif.Props
