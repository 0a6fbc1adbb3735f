import Verif.Queue
import Verif.QueueProps
import Verif.Chain
import Verif.ChainProps
import Verif.Stack
import Verif.StackProps
import Verif.Array
import Verif.ArrayProps
import Verif.Base64
import Verif.Base64Props
import Verif.Md
import Verif.Md5
import Verif.Md5Props
import Verif.Sha1
import Verif.Sha1Props
import Verif.Sha256
import Verif.Sha256Props
import Verif.Aes
import Verif.AesProps
import Verif.Rc4
import Verif.Rc4Props
import Verif.BigEndian
import Verif.BigEndianProps
import Verif.Des
import Verif.DesProps
import Verif.Time
import Verif.TimeProps
import Verif.Str
import Verif.StrMiscProps
import Verif.StrProps
import Verif.StrSearchProps
import Verif.Bn
import Verif.BnAddProps
import Verif.BnBase
import Verif.BnDivBase
import Verif.BnMulProps
import Verif.BnDivProps
import Verif.BnPwrProps
import Verif.BnShiftProps
import Verif.BnEuclidProps
import Verif.BnOctetProps
import Verif.BnText
import Verif.BnTextProps
import Verif.Prime
import Verif.PrimeProps
import Verif.Asn1
import Verif.Asn1EncProps
import Verif.Asn1Props
import Verif.WebSocket
import Verif.WebSocketProps
import Verif.RbTree
import Verif.RbTreeDelFix
import Verif.RbTreeFix
import Verif.RbTreeOps
import Verif.RbTreeProps
import Verif.RbTreeRep
import Verif.RbTreeRot
import Verif.Rs
import Verif.RsField
import Verif.RsProps
import Verif.RsRecover
import Verif.IoThread
import Verif.IoThreadProps
import Verif.SpinLock
import Verif.SpinLockProps
import Verif.Cron
import Verif.CronProps
import Verif.Hash
import Verif.HashProps
import Verif.Json
import Verif.JsonEncProps
import Verif.JsonProps
import Verif.JsonSafeProps
import Verif.ThreadPool
import Verif.ThreadPoolProps
import Verif.Alloc
import Verif.AllocHist
import Verif.AllocProps
import Verif.Shm
import Verif.ShmProps
import Verif.Fec
import Verif.FecProps
import Verif.Gc
import Verif.GcProps
import Verif.File
import Verif.FileProps
import Verif.BnPrime
import Verif.BnPrimeProps
import Verif.BnWeakProps
import Verif.Rsa
import Verif.RsaProps
import Verif.RsaKey
import Verif.RsaKeyProps
import Verif.Fheap
import Verif.FheapProps
import Verif.FheapAgainProps
import Verif.Regexp
import Verif.RegexpBadProps
import Verif.RegexpItemProps
import Verif.RegexpProps
import Verif.Http
import Verif.HttpFieldProps
import Verif.HttpGenProps
import Verif.HttpProps
import Verif.HttpRoundProps
import Verif.Conn
import Verif.ConnProps
import Verif.HttpSoundProps
import Verif.Lex
import Verif.LexBadProps
import Verif.LexPpProps
import Verif.LexProps
import Verif.LexRunProps
import Verif.RegexpClassProps
import Verif.Expr
import Verif.ExprFailProps
import Verif.ExprLexProps
import Verif.ExprProps
import Verif.ExprOpenProps
import Verif.Err
import Verif.ErrProps
import Verif.Matrix
import Verif.MatrixProps
import Verif.Conf
import Verif.ConfLexProps
import Verif.ConfProps
import Verif.Event
import Verif.EventLocal
import Verif.EventOnceProps
import Verif.EventProps
import Verif.EventSafe
import Verif.RsaForgeProps
import Verif.RsaSign
import Verif.RsaSignProps
import Verif.Ipc
import Verif.IpcProps
import Verif.Log
import Verif.LogProps
import Verif.Pg
import Verif.PgFirstProps
import Verif.PgGen
import Verif.PgProps
import Verif.PgRun
import Verif.HashMoreProps
import Verif.JsonMoreProps
import Verif.Lang
import Verif.LangHaltProps
import Verif.LangProps
import Verif.LangRefProps
import Verif.LangStmProps
import Verif.CronPeriodProps
import Verif.FecSizeProps
import Verif.LangOp
import Verif.LangOpProps
import Verif.ThreadPoolMutexProps
import Verif.Itc
import Verif.ItcFifoProps
import Verif.ItcProps
import Verif.WsBadProps
import Verif.WsHand
import Verif.WsHandProps
import Verif.WsShakeProps
import Verif.Asn1ImplicitProps
import Verif.MlnList
import Verif.MlnListProps
import Verif.PgCloseProps
import Verif.PgTableProps
import Verif.Span
import Verif.SpanProps
import Verif.PgFullProps
import Verif.PgGotoProps
import Verif.LangSched
import Verif.LangSchedProps
import Verif.SearchPath
import Verif.SearchPathProps
import Verif.Trace
import Verif.TraceProps
import Verif.LangArray
import Verif.LangArrayProps
import Verif.LangKey
import Verif.LangKeyProps
import Verif.LangStr
import Verif.LangStrProps
import Verif.LangPipe
import Verif.LangPipeProps
import Verif.LangSym
import Verif.LangSymProps
import Verif.LangVar
import Verif.LangVarProps
import Verif.LangWatch
import Verif.LangWatchProps
import Verif.LangImport
import Verif.LangImportProps
import Verif.Supervise
import Verif.SuperviseProps
import Verif.LangExp
import Verif.LangExpProps
import Verif.LangGram
import Verif.LangGramProps
import Verif.PgUnique
import Verif.EventDeliver
import Verif.EventDeliverProps
import Verif.Framework
import Verif.FrameworkProps
import Verif.Hook
import Verif.HookProps
import Verif.LangObj
import Verif.LangObjProps
import Verif.LangTreeProps
import Verif.JsonGen
import Verif.JsonGenProps
import Verif.LangLex
import Verif.LangLexProps
import Verif.WsSend
import Verif.WsSendProps
import Verif.LangGc
import Verif.LangGcProps
import Verif.ConfApi
import Verif.ConfApiProps
import Verif.StrLife
import Verif.StrLifeProps
import Verif.Boot
import Verif.BootProps
import Verif.JsonTree
import Verif.JsonTreeProps
import Verif.WsMatch
import Verif.WsMatchProps
import Verif.ClassObj
import Verif.ClassObjProps
import Verif.ChainBuf
import Verif.ChainBufProps
import Verif.Notice
import Verif.NoticeProps
import Verif.LangFunc
import Verif.LangFuncProps
import Verif.ChainAdd
import Verif.ChainAddProps
import Verif.TracePath
import Verif.TracePathProps
import Verif.BootArgs
import Verif.BootArgsProps
import Verif.Cases
