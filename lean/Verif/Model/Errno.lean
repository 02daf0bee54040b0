import Verif.Spec.Wasi
/- Model of src/wasi/error.rs. -/
namespace Verif.Model
open Verif.Spec

/-- src/wasi/error.rs:255-336 `WasiError::from_errno` -/
def fromErrno (errno : BitVec 16) : WasiErr :=
  match errno.toNat with
  | 0 => .success
  | 1 => .e2big
  | 2 => .acces
  | 3 => .addrInUse
  | 4 => .addrNotAvail
  | 5 => .afNoSupport
  | 6 => .again
  | 7 => .already
  | 8 => .badF
  | 9 => .badMsg
  | 10 => .busy
  | 11 => .canceled
  | 12 => .child
  | 13 => .connAborted
  | 14 => .connRefused
  | 15 => .connReset
  | 16 => .deadLk
  | 17 => .destAddrReq
  | 18 => .dom
  | 19 => .dQuot
  | 20 => .exist
  | 21 => .fault
  | 22 => .fBig
  | 23 => .hostUnreach
  | 24 => .idRm
  | 25 => .ilSeq
  | 26 => .inProgress
  | 27 => .intr
  | 28 => .inval
  | 29 => .io
  | 30 => .isConn
  | 31 => .isDir
  | 32 => .loop
  | 33 => .mFile
  | 34 => .mLink
  | 35 => .msgSize
  | 36 => .multiHop
  | 37 => .nameTooLong
  | 38 => .netDown
  | 39 => .netReset
  | 40 => .netUnreach
  | 41 => .nFile
  | 42 => .noBufs
  | 43 => .noDev
  | 44 => .noEnt
  | 45 => .noExec
  | 46 => .noLck
  | 47 => .noLink
  | 48 => .noMem
  | 49 => .noMsg
  | 50 => .noProtoOpt
  | 51 => .noSpc
  | 52 => .noSys
  | 53 => .notConn
  | 54 => .notDir
  | 55 => .notEmpty
  | 56 => .notRecoverable
  | 57 => .notSock
  | 58 => .notSup
  | 59 => .notTty
  | 60 => .nxIo
  | 61 => .overflow
  | 62 => .ownerDead
  | 63 => .perm
  | 64 => .pipe
  | 65 => .proto
  | 66 => .protoNoSupport
  | 67 => .prototype
  | 68 => .range
  | 69 => .roFs
  | 70 => .sPipe
  | 71 => .srch
  | 72 => .stale
  | 73 => .timedOut
  | 74 => .txtBsy
  | 75 => .xDev
  | 76 => .notCapable
  | _ => .io

/-- src/wasi/error.rs:338-418 `WasiError::to_errno` -/
def toErrno : WasiErr → BitVec 32
  | .success => 0
  | .e2big => 1
  | .acces => 2
  | .addrInUse => 3
  | .addrNotAvail => 4
  | .afNoSupport => 5
  | .again => 6
  | .already => 7
  | .badF => 8
  | .badMsg => 9
  | .busy => 10
  | .canceled => 11
  | .child => 12
  | .connAborted => 13
  | .connRefused => 14
  | .connReset => 15
  | .deadLk => 16
  | .destAddrReq => 17
  | .dom => 18
  | .dQuot => 19
  | .exist => 20
  | .fault => 21
  | .fBig => 22
  | .hostUnreach => 23
  | .idRm => 24
  | .ilSeq => 25
  | .inProgress => 26
  | .intr => 27
  | .inval => 28
  | .io => 29
  | .isConn => 30
  | .isDir => 31
  | .loop => 32
  | .mFile => 33
  | .mLink => 34
  | .msgSize => 35
  | .multiHop => 36
  | .nameTooLong => 37
  | .netDown => 38
  | .netReset => 39
  | .netUnreach => 40
  | .nFile => 41
  | .noBufs => 42
  | .noDev => 43
  | .noEnt => 44
  | .noExec => 45
  | .noLck => 46
  | .noLink => 47
  | .noMem => 48
  | .noMsg => 49
  | .noProtoOpt => 50
  | .noSpc => 51
  | .noSys => 52
  | .notConn => 53
  | .notDir => 54
  | .notEmpty => 55
  | .notRecoverable => 56
  | .notSock => 57
  | .notSup => 58
  | .notTty => 59
  | .nxIo => 60
  | .overflow => 61
  | .ownerDead => 62
  | .perm => 63
  | .pipe => 64
  | .proto => 65
  | .protoNoSupport => 66
  | .prototype => 67
  | .range => 68
  | .roFs => 69
  | .sPipe => 70
  | .srch => 71
  | .stale => 72
  | .timedOut => 73
  | .txtBsy => 74
  | .xDev => 75
  | .notCapable => 76
  | .processExit _ => 0

end Verif.Model
