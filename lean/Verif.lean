import Verif.Props.C01_IntervalMap
import Verif.Props.C03_Tokens
import Verif.Props.C06_AlignedAlloc
import Verif.Props.C37_Mailbox
import Verif.Props.C41_ThreadPool
import Verif.Props.C42_Scheduler
import Verif.Props.C43_ActorCell
import Verif.Props.C44_Watchers
import Verif.Props.C45_ActorTree
import Verif.Props.C11_Views
import Verif.Props.C08_Ranges
import Verif.Props.C10_Numeric
import Verif.Props.C17_Lookup
import Verif.Props.C19_VectorNd
import Verif.Props.C25_VectorView
import Verif.Props.C26_DynArray
import Verif.Props.C27_Optional
import Verif.Props.C28_Variant
import Verif.Props.C29_Any
import Verif.Props.C30_Match
import Verif.Props.C32_Finally
import Verif.Props.C33_Attributes
import Verif.Props.C34_AtomicAttributes
import Verif.Props.C35_Meta
import Verif.Props.C36_ActorPath
import Verif.Props.C47_NameGenerator
import Verif.Props.C48_Execution
import Verif.Props.C49_Behaviours
import Verif.Props.C50_ConfigLookup
import Verif.Props.C51_ConfigBuilder
import Verif.Props.C52_ConfigCopies
import Verif.Props.C54_ConfigMerge
import Verif.Props.C56_ScalarText
import Verif.Props.C58_Ini
import Verif.Props.C60_Json
import Verif.Props.C61_Yaml
import Verif.Props.C62_Xml
import Verif.Props.C63_ConfigTyped
import Verif.Props.C64_Storage
import Verif.Props.C66_Root
import Verif.Props.C67_Ask
import Verif.Props.C68_Selection
import Verif.Props.C65_Pinned
import Verif.Props.C69_Tcp
import Verif.Props.C70_Udp
import Verif.Props.C71_Tuple
import Verif.Props.C72_Cmd
import Verif.Props.C74_VectorObjs
import Verif.Props.C75_VectorFrom
import Verif.Props.C76_VectorFromView
import Verif.Props.C77_Reflection
import Verif.Props.C78_Logger
import Verif.Props.C79_Inbox
import Verif.Props.C80_TypeTraits
import Verif.Props.C81_ArrayNd
import Verif.Props.C82_Lifetimes
import Verif.Props.C83_Facade
import Verif.Props.C84_ConfigIter
import Verif.Props.C85_Turns
import Verif.Props.C86_ActorSteps
import Verif.Props.C87_CheckedPtr
import Verif.Props.C88_Singleton
import Verif.Props.C89_AssertLock
import Verif.Props.C90_CompressedPair
import Verif.Props.C91_TypeMatch
import Verif.Props.C92_OptionalKinds
import Verif.Props.C93_ConfigText
import Verif.Props.C94_ConfigProps
import Verif.Props.C95_SpecialMembers
import Verif.Props.C96_ViewOf
import Verif.Props.C97_ContainerOps
import Verif.Props.C98_Adaptors
import Verif.Props.C99_FilterVars
import Verif.Props.C100_AttrThreads
import Verif.Props.C101_AtomicThreads
import Verif.Props.C102_VectorRows
import Verif.Props.C103_Reals
import Verif.Props.C104_Decode
import Verif.Props.C105_ConfigWhole
import Verif.Props.C106_Listener
import Verif.Props.C107_TokenIter
import Verif.Props.C108_ContainerAccess
import Verif.Props.C109_FloatCast
import Verif.Props.C110_Accessors
import Verif.Props.C111_Extents
import Verif.Props.C112_SamplerMembers
import Verif.Props.C113_Invoke
import Verif.Props.C114_Arenas
import Verif.Props.C115_ArenasDyn
import Verif.Props.C116_RawMemory
