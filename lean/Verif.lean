import Verif.RBTree
import Verif.RBTreeLemmas
import Verif.RBTreeProps

import Verif.Bitmap
import Verif.BitmapProps
import Verif.DList
import Verif.DListProps
import Verif.Psb
import Verif.PsbProps
import Verif.Words
import Verif.WordsProps
import Verif.Inet
import Verif.InetProps
import Verif.IdTable
import Verif.IdTableProps
import Verif.NetUtil
import Verif.NetUtilProps
import Verif.Route
import Verif.RouteProps
import Verif.Netifs
import Verif.NetifsProps
import Verif.OnQ
import Verif.OnQProps
import Verif.Marshal
import Verif.MarshalProps
import Verif.DynArray
import Verif.DynArrayProps
import Verif.Timer
import Verif.TimerProps
import Verif.TimerRef
import Verif.TimerRefProps
import Verif.RwLock
import Verif.RwLockInv
import Verif.RwLockLive
import Verif.RwLockProps
import Verif.KLocks
import Verif.KLocksProps
import Verif.RefObj
import Verif.RefObjInv
import Verif.RefObjProps
import Verif.Mpq
import Verif.MpqInv
import Verif.MpqUse
import Verif.MpqLog
import Verif.MpqTok
import Verif.MpqSync
import Verif.MpqCause
import Verif.MpqBlock
import Verif.MpqGo
import Verif.MpqCalls
import Verif.MpqProps
import Verif.Wakeup
import Verif.WakeupProps
import Verif.Pool
import Verif.PoolProps
import Verif.PoolTail
import Verif.PoolWait
import Verif.IoWrite
import Verif.IoWriteProps
import Verif.IoRead
import Verif.IoReadLemmas
import Verif.IoReadProps
import Verif.IoReadMore
import Verif.FdTab
import Verif.FdTabProps
import Verif.Tls
import Verif.TlsProps
import Verif.Mm
import Verif.MmProps
import Verif.Lifecycle
import Verif.LifecycleProps
import Verif.MemApi
import Verif.MemApiProps
import Verif.Errno
import Verif.ErrnoProps
import Verif.WaitTime
import Verif.WaitTimeProps
import Verif.Iomp
import Verif.IompProps
import Verif.Arm
import Verif.ArmProps
import Verif.Dispatch
import Verif.DispatchProps
import Verif.MpqEsc
import Verif.IoErrProps
import Verif.IoBoth
import Verif.IoBothProps
import Verif.Hal
import Verif.HalProps
import Verif.KLocksMore
import Verif.RefObjMore
import Verif.ThreadApi
import Verif.ThreadApiProps
import Verif.SysApi
import Verif.SysApiProps
import Verif.SockPipe
import Verif.SockPipeProps
import Verif.Netlink
import Verif.NetlinkProps
import Verif.NetlinkLinks
import Verif.MarshalMem
import Verif.MarshalMemProps
import Verif.RBWalk
import Verif.RBWalkLemmas
import Verif.RBWalkProps
import Verif.RefNode
import Verif.RefNodeProps
import Verif.NetSub
import Verif.NetSubProps
import Verif.QHandle
import Verif.QHandleProps
import Verif.RunQuery
import Verif.RunQueryProps
import Verif.PoolIdle
import Verif.PoolIdleProps
import Verif.QWait
import Verif.QWaitInv
import Verif.QWaitProps
import Verif.QFlags
import Verif.QFlagsProps
import Verif.TimerApi
import Verif.TimerApiProps
import Verif.CurQ
import Verif.CurQProps
import Verif.CondSim
import Verif.CondSimProps
import Verif.PortThread
import Verif.PortThreadProps
import Verif.PortTime
import Verif.PortTimeProps
import Verif.PortAtomic
import Verif.PortAtomicProps
import Verif.PortSock
import Verif.PortSockProps
import Verif.PortIomp
import Verif.PortIompProps
import Verif.MmPos
import Verif.MmPosProps
import Verif.QEnd
import Verif.QEndProps
import Verif.StatLock
import Verif.StatLockProps
import Verif.SkAddr
import Verif.SkAddrProps
import Verif.PortMem
import Verif.PortMemProps
import Verif.MpqDead
import Verif.MpqDeadProps
import Verif.QMake
import Verif.QMakeProps
import Verif.MpqEnd
import Verif.FdReg
import Verif.FdRegProps
import Verif.PortUtil
import Verif.PortUtilProps
import Verif.PortFile
import Verif.PortFileInv
import Verif.PortFileProps
import Verif.PortClock
import Verif.PortClockInv
import Verif.PortClockProps
import Verif.PortIo
import Verif.PortIoProps
import Verif.PortPrio
import Verif.PortPrioProps
import Verif.RouteKnow
import Verif.RouteKnowProps
import Verif.PoolInit
import Verif.PoolInitProps
import Verif.PrefixGet
import Verif.PrefixGetProps
import Verif.PoolInitMore
import Verif.DnsPrefix
import Verif.DnsPrefixProps
import Verif.EncInt
import Verif.EncIntProps
import Verif.DynSelf
import Verif.DynSelfProps
import Verif.PoolFull
import Verif.PoolFullProps
import Verif.MainQ
import Verif.MainQProps
import Verif.PktMem
import Verif.PktMemProps
import Verif.MainEnd
import Verif.MainEndProps
import Verif.MarshalFwd
import Verif.MarshalFwdProps
import Verif.PortLock
import Verif.PortLockProps
import Verif.PortCond
import Verif.PortCondProps
import Verif.PoolCall
import Verif.PoolCallProps
import Verif.RwWait
import Verif.RwWaitProps
import Verif.PoolDone
import Verif.PoolDoneProps
import Verif.CloseApi
import Verif.CloseApiProps
