import Verif.Props.Strings
import Verif.Props.Sig
import Verif.Props.Registry
import Verif.Props.Members
import Verif.Props.MemberExamples
import Verif.Props.Hooks
import Verif.Props.Refs
import Verif.Props.Objects
import Verif.Props.ArrayLength
import Verif.Props.Threads
import Verif.Props.Calls
import Verif.Props.Baron
import Verif.Props.Table
import Verif.Props.Override
import Verif.Props.Context
import Verif.Props.Library
import Verif.Props.Monitor
import Verif.Props.Race
import Verif.Props.Arrays
import Verif.Props.ArrayHistory
import Verif.Props.ArraySelf
import Verif.Props.Proxy
import Verif.Props.ProxyInit
import Verif.Props.WinLoader
import Verif.Props.Release
import Verif.Props.HookSig
import Verif.Props.Codegen
import Verif.Props.ClassDump
import Verif.Props.Locks
import Verif.Props.TypedArrays
import Verif.Props.ObjArgs
import Verif.Props.Buffers
import Verif.Props.Invoke
import Verif.Props.Descriptor
import Verif.Props.CppArrays
import Verif.Props.Regenerate
import Verif.Props.Defaults
import Verif.Props.FieldVars
import Verif.Props.ArgsAmid
import Verif.Props.LocalFrame
import Verif.Props.Start
import Verif.Props.Destroy
import Verif.Props.FrameSize
import Verif.Props.CppRefs
import Verif.Props.Except
import Verif.Props.Guards
import Verif.Props.Unwind
import Verif.Props.Unload
import Verif.Props.MainMethod
import Verif.Props.Lifetime
import Verif.Props.Program
import Verif.Props.ProgramNeeds
import Verif.Props.Asserts
import Verif.Tests.Strings
import Verif.Tests.Refs
import Verif.Tests.Members
import Verif.Props.Jni
import Verif.Model.Nested
import Verif.Spec.Nested
import Verif.Lemmas.Nested
import Verif.Props.Nested
import Verif.Model.ThreadsRun
import Verif.Spec.ThreadsRun
import Verif.Lemmas.ThreadsRun
import Verif.Props.ThreadsRun
import Verif.Model.Waits
import Verif.Spec.Waits
import Verif.Lemmas.Waits
import Verif.Props.Waits
import Verif.Props.Warm
import Verif.Props.WarmProgram
import Verif.Props.Wrappers
import Verif.Props.NewObject
import Verif.Props.Invocation
import Verif.Props.GetClasses
import Verif.Props.Trace
import Verif.Props.Nulls
import Verif.Props.FieldProgram
import Verif.Props.VirtualProgram
import Verif.Props.InheritedProgram
import Verif.Props.InheritedField
import Verif.Props.ConstructProgram
import Verif.Props.VarargsProgram
import Verif.Props.CatchProgram
import Verif.Props.HandOver
import Verif.Props.NativeProgram
