/-
WASI preview 1 error names (snapshot_preview1 witx, `errno`) and their numbers.
-/
namespace Verif.Spec

/-- WASI preview 1 `errno` names, plus the interpreter's own process-exit request. -/
inductive WasiErr
  | success | e2big | acces | addrInUse | addrNotAvail | afNoSupport | again | already | badF | badMsg | busy
  | canceled | child | connAborted | connRefused | connReset | deadLk | destAddrReq | dom | dQuot | exist
  | fault | fBig | hostUnreach | idRm | ilSeq | inProgress | intr | inval | io | isConn | isDir | loop | mFile
  | mLink | msgSize | multiHop | nameTooLong | netDown | netReset | netUnreach | nFile | noBufs | noDev | noEnt
  | noExec | noLck | noLink | noMem | noMsg | noProtoOpt | noSpc | noSys | notConn | notDir | notEmpty | notRecoverable
  | notSock | notSup | notTty | nxIo | overflow | ownerDead | perm | pipe | proto | protoNoSupport | prototype
  | range | roFs | sPipe | srch | stale | timedOut | txtBsy | xDev | notCapable
  | processExit (code : BitVec 32)
  deriving DecidableEq, Repr

/-- The numbering of the WASI ABI: position in this list. -/
def wasiErrnos : List WasiErr := [
  .success, .e2big, .acces, .addrInUse, .addrNotAvail, .afNoSupport, .again, .already, .badF, .badMsg, .busy,
  .canceled, .child, .connAborted, .connRefused, .connReset, .deadLk, .destAddrReq, .dom, .dQuot, .exist,
  .fault, .fBig, .hostUnreach, .idRm, .ilSeq, .inProgress, .intr, .inval, .io, .isConn, .isDir, .loop, .mFile,
  .mLink, .msgSize, .multiHop, .nameTooLong, .netDown, .netReset, .netUnreach, .nFile, .noBufs, .noDev, .noEnt,
  .noExec, .noLck, .noLink, .noMem, .noMsg, .noProtoOpt, .noSpc, .noSys, .notConn, .notDir, .notEmpty, .notRecoverable,
  .notSock, .notSup, .notTty, .nxIo, .overflow, .ownerDead, .perm, .pipe, .proto, .protoNoSupport, .prototype,
  .range, .roFs, .sPipe, .srch, .stale, .timedOut, .txtBsy, .xDev, .notCapable]

end Verif.Spec
