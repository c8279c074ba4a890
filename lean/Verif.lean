import Verif.Props.SelectorOrder
import Verif.Props.Mfs
import Verif.Props.SelectorPath
import Verif.Props.Property
import Verif.Props.Access
import Verif.Props.PostOrder
import Verif.Lemmas.AccessSlots
import Verif.Props.MfsAccess
import Verif.Props.Identity
import Verif.Props.Subtype
import Verif.Props.Coll
import Verif.Props.PySlice
import Verif.Props.CollDict
import Verif.Props.CollEq
import Verif.Props.Generic
import Verif.Props.DiffText
import Verif.Props.Diff
import Verif.Props.DiffAgree
import Verif.Props.DiffCount
import Verif.Props.DiffFuzzy
import Verif.Props.DiffDict
import Verif.Props.DiffUnchanged
import Verif.Props.DiffMirror
import Verif.Props.DiffFilter
import Verif.Props.DiffHooks
import Verif.Props.JsonKeys
import Verif.Props.JsonOut
import Verif.Props.JsonUnknown
import Verif.Props.JsonBack
import Verif.Props.Visitor
import Verif.Props.VisitorCue
import Verif.Props.VisitorTrip
import Verif.Props.VisitorEx
import Verif.Props.JsonValid
import Verif.Props.JsonError
import Verif.Props.VisitorValid
import Verif.Props.VisitorErr
import Verif.Props.Empty
import Verif.Props.ClassMeta
import Verif.Props.Traits
import Verif.Props.AutoJson
import Verif.Props.Types
import Verif.Props.Reflect
import Verif.Props.PropInit
import Verif.Props.PropInitLib
import Verif.Props.CollProp
import Verif.Props.DiffAssert
import Verif.Props.DiffReplay
import Verif.Model.JsonDiff
import Verif.Spec.JsonDiff
import Verif.Props.JsonDiff
import Verif.Model.DiffStr
import Verif.Spec.DiffStr
import Verif.Props.DiffStr
import Verif.Model.Mem
import Verif.Spec.Mem
import Verif.Props.Mem
import Verif.Spec.MemTree
import Verif.Props.MemTree
import Verif.Model.Repr
import Verif.Spec.Repr
import Verif.Props.Repr
import Verif.Model.SelRepr
import Verif.Props.SelRepr
import Verif.Model.GenericThreads
import Verif.Spec.Threads
import Verif.Props.GenericThreads
import Verif.Model.LazyThreads
import Verif.Spec.LazyThreads
import Verif.Props.LazyThreads
import Verif.Spec.Hashing
import Verif.Props.Hashing
import Verif.Model.Exceptions
import Verif.Spec.Exceptions
import Verif.Lemmas.Exceptions
import Verif.Lemmas.ExceptionSites
import Verif.Props.Exceptions
import Verif.Model.CollExtra
import Verif.Spec.CollExtra
import Verif.Props.CollExtra
import Verif.Model.JsonThreads
import Verif.Spec.JsonThreads
import Verif.Lemmas.JsonThreads
import Verif.Props.JsonThreads
import Verif.Model.EmptyThreads
import Verif.Lemmas.EmptyThreads
import Verif.Props.EmptyThreads
import Verif.Model.TraitThreads
import Verif.Lemmas.TraitThreads
import Verif.Props.TraitThreads
import Verif.Model.JsonMem
import Verif.Spec.JsonMem
import Verif.Lemmas.JsonMem
import Verif.Lemmas.JsonMemTree
import Verif.Props.JsonMem
import Verif.Model.JsonInMem
import Verif.Spec.JsonInMem
import Verif.Lemmas.JsonInMem
import Verif.Lemmas.JsonInMemInv
import Verif.Lemmas.JsonInMemTree
import Verif.Lemmas.JsonInMemSame
import Verif.Props.JsonInMem
import Verif.Model.Observe
import Verif.Spec.Observe
import Verif.Lemmas.Observe
import Verif.Props.Observe
import Verif.Spec.ConstructOrder
import Verif.Lemmas.ConstructOrder
import Verif.Props.ConstructOrder
import Verif.Model.Signature
import Verif.Spec.Signature
import Verif.Props.Signature
import Verif.Spec.DiffFilter
import Verif.Lemmas.DiffComplete
import Verif.Props.DiffComplete
import Verif.Spec.DiffOutside
import Verif.Lemmas.DiffOutside
import Verif.Props.DiffOutside
import Verif.Spec.DiffEmpty
import Verif.Props.DiffEmpty
import Verif.Spec.IdentityTells
import Verif.Props.IdentityTells
import Verif.Model.RecordStr
import Verif.Spec.RecordStr
import Verif.Props.RecordStr
import Verif.Spec.DiffTrans
import Verif.Props.DiffTrans
import Verif.Spec.DiffEqual
import Verif.Props.DiffEqual
import Verif.Spec.DiffNone
import Verif.Props.DiffNone
import Verif.Spec.DiffCopy
import Verif.Props.DiffCopy
import Verif.Spec.DiffRuns
import Verif.Lemmas.DiffRuns
import Verif.Lemmas.HashingHook
import Verif.Props.DiffRuns
import Verif.Spec.VisitorGrok
import Verif.Props.VisitorGrok
import Verif.Props.VisitorUnion
import Verif.Spec.ObserveFinds
import Verif.Props.ObserveFinds
import Verif.Props.ObserveNeeds
import Verif.Spec.TraitsMissing
import Verif.Props.TraitsMissing
import Verif.Model.ExcRepr
import Verif.Spec.ExcRepr
import Verif.Props.ExcRepr
import Verif.Spec.IdentityFilter
import Verif.Props.IdentityFilter
import Verif.Spec.IdentityUnion
import Verif.Props.IdentityUnion
import Verif.Spec.DiffPatch
import Verif.Props.DiffPatch
import Verif.Spec.DiffHollow
import Verif.Props.DiffHollow
import Verif.Spec.DiffRecurse
import Verif.Spec.DiffCompare
import Verif.Lemmas.DiffRecurse
import Verif.Props.DiffRecurse
import Verif.Lemmas.DiffBack
import Verif.Props.JsonDiffBack
import Verif.Props.VisitorDiffBack
import Verif.Model.SelectorObj
import Verif.Spec.SelectorObj
import Verif.Props.SelectorObj
import Verif.Model.DiffLive
import Verif.Spec.DiffLive
import Verif.Props.DiffLive
import Verif.Model.VisitorLazy
import Verif.Spec.VisitorLazy
import Verif.Props.VisitorLazy
import Verif.Spec.EmptySets
import Verif.Props.EmptySets
import Verif.Spec.Numbers
import Verif.Props.Numbers
import Verif.Spec.MfsOrder
import Verif.Props.MfsOrder
import Verif.Spec.JsonShared
import Verif.Props.JsonShared
import Verif.Model.CollSet
import Verif.Spec.CollSet
import Verif.Props.CollSet
import Verif.Spec.MemShare
import Verif.Props.MemShare
import Verif.Model.DuckThreads
import Verif.Spec.DuckThreads
import Verif.Props.DuckThreads
import Verif.Model.CompleteMfs
import Verif.Spec.CompleteMfs
import Verif.Props.CompleteMfs
import Verif.Model.SoftGet
import Verif.Spec.SoftGet
import Verif.Props.SoftGet
