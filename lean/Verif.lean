import Verif.AbsPath
import Verif.Accel
import Verif.AcpiSem
import Verif.Avl
import Verif.Brk
import Verif.Cmdline
import Verif.Codec
import Verif.Console
import Verif.Cwd
import Verif.DevFs
import Verif.Elf
import Verif.Exec
import Verif.Fat
import Verif.FatCompact
import Verif.FatDir
import Verif.FbDev
import Verif.Fd
import Verif.Flock
import Verif.Fork
import Verif.Gdt
import Verif.Itoa
import Verif.Kbc
import Verif.Kbd
import Verif.Kcond
import Verif.Kmalloc
import Verif.Kmutex
import Verif.Ksem
import Verif.LList
import Verif.MemMap
import Verif.Mmap
import Verif.MountPt
import Verif.NullDev
import Verif.OpenFile
import Verif.Paging
import Verif.Pgrp
import Verif.Pid
import Verif.Pipe
import Verif.PollSel
import Verif.Printk
import Verif.RamDir
import Verif.RamFile
import Verif.RamMmap
import Verif.Resolve
import Verif.Ringbuf
import Verif.RwlockRp
import Verif.RwlockWp
import Verif.SafeRingbuf
import Verif.Sched
import Verif.Serial
import Verif.Signal
import Verif.SmallHeap
import Verif.Snprintk
import Verif.Sort
import Verif.Str
import Verif.SysIo
import Verif.Sysfs
import Verif.TaskRes
import Verif.TermQueue
import Verif.Time
import Verif.Timer
import Verif.TtyEcho
import Verif.TtyIn
import Verif.TtyMode
import Verif.UserMem
import Verif.Vterm
import Verif.Waitpid
import Verif.Wth
