import Verif.Proofs.Rfc
import Verif.Proofs.DeBuilt
import Verif.Props.Codec
import Verif.Props.Decoding
import Verif.Props.Writing
import Verif.Props.Scalars
import Verif.Props.Opaque
import Verif.Props.Enums
import Verif.Props.Maps
import Verif.Props.Panics
import Verif.Props.Normal
import Verif.Props.Resources
import Verif.Props.Parsing
import Verif.Props.Numbers
import Verif.Props.Resolve
import Verif.Props.Names
import Verif.Props.Flags
import Verif.Props.GenEnum
import Verif.Props.GenUnion
import Verif.Props.EndToEnd
import Verif.Props.GenUnionTrait
import Verif.Props.GenStruct
import Verif.Props.GenLimits
import Verif.Tests.Rpcgen
import Verif.Tests.Codec
import Verif.Props.Derive
import Verif.Props.DeriveGen
import Verif.Props.DeriveTokens
import Verif.Props.DeriveGenTokens
import Verif.Rpcgen.Cost
import Verif.RpcgenProofs.Cost
import Verif.Spec.Calls
import Verif.RpcgenProofs.Calls
import Verif.RpcgenProofs.CallsBound
import Verif.Props.Cost
import Verif.Rpcgen.Default
import Verif.Spec.Defaults
import Verif.RpcgenProofs.Default
import Verif.RpcgenProofs.DefaultEnds
import Verif.Props.Defaults
import Verif.Spec.Consts
import Verif.Props.Consts
import Verif.RpcgenProofs.Mono
import Verif.Spec.Variants
import Verif.RpcgenProofs.Variants
import Verif.Props.GenVariants
import Verif.Props.Ends
import Verif.Spec.Items
import Verif.Props.Items
import Verif.Rpcgen.Tokens
import Verif.Spec.RustLex
import Verif.Spec.RustTokens
import Verif.Spec.RustSyntax
import Verif.Spec.RustMeaning
import Verif.RpcgenProofs.Ast
import Verif.RpcgenProofs.LexRust
import Verif.RpcgenProofs.LexFile
import Verif.RpcgenProofs.ParseRust
import Verif.RpcgenProofs.ParseItems
import Verif.RpcgenProofs.ParseFile
import Verif.RpcgenProofs.Scoped
import Verif.RpcgenProofs.TextUse
import Verif.RpcgenProofs.TextMeaning
import Verif.RpcgenProofs.TextTypes
import Verif.RpcgenProofs.TextDefs
import Verif.Props.Text
import Verif.Spec.RustDefault
import Verif.RpcgenProofs.TextDefault
import Verif.Props.TextDefault
import Verif.Spec.Clean
import Verif.Spec.Translatable
import Verif.Spec.Printable
import Verif.Spec.Proper
import Verif.RpcgenProofs.CleanTypes
import Verif.RpcgenProofs.CleanNames
import Verif.RpcgenProofs.CleanItems
import Verif.RpcgenProofs.CleanUnion
import Verif.RpcgenProofs.NoErr
import Verif.RpcgenProofs.Proper
import Verif.Props.Compiles
import Verif.Props.Needed
import Verif.Props.Accepts
import Verif.RpcgenProofs.Printable
import Verif.RpcgenProofs.Printed
import Verif.Props.Printable
import Verif.Props.Whole
import Verif.Spec.Accepted
import Verif.Proofs.FitsSmall
import Verif.RpcgenProofs.Consistent
import Verif.RpcgenProofs.Accepted
import Verif.RpcgenProofs.NoLeeway
import Verif.Props.Accepted
import Verif.Model.Reserve
import Verif.Spec.Reaches
import Verif.Proofs.Reserve
import Verif.Props.Reserve
import Verif.Model.Work
import Verif.Spec.Work
import Verif.Proofs.Work
import Verif.Props.Work
import Verif.Model.Keep
import Verif.Spec.Catching
import Verif.Proofs.Catching
import Verif.Props.Catching
import Verif.Model.KeepSer
import Verif.Spec.Leaving
import Verif.Proofs.Leaving
import Verif.Props.Leaving
import Verif.Spec.Utf8
import Verif.Proofs.Utf8
import Verif.Model.Display
import Verif.Proofs.Display
import Verif.Rpcgen.Display
import Verif.Props.Messages
import Verif.Spec.Later
import Verif.Proofs.Later
import Verif.Props.Later
import Verif.Spec.Uses
import Verif.RpcgenProofs.Local
import Verif.Props.Independent
import Verif.Spec.Cuts
import Verif.Proofs.Cuts
import Verif.Props.Cuts
import Verif.RpcgenProofs.SizeTokens
import Verif.RpcgenProofs.SizeText
import Verif.RpcgenProofs.SizeTypes
import Verif.RpcgenProofs.SizeItems
import Verif.RpcgenProofs.SizeUnion
import Verif.RpcgenProofs.SizeFile
import Verif.Props.Size
import Verif.Spec.Versions
import Verif.RpcgenProofs.Versions
import Verif.RpcgenProofs.Unbounded
import Verif.Props.Versions
import Verif.Spec.Form
import Verif.Proofs.Form
import Verif.Props.Form
import Verif.Spec.Stops
import Verif.Proofs.Stops
import Verif.Proofs.StopsBack
import Verif.Props.Stops
import Verif.Spec.AcceptedForm
import Verif.RpcgenProofs.FormInv
import Verif.RpcgenProofs.Takes
import Verif.Props.AcceptedBytes
import Verif.Spec.EnumText
import Verif.Proofs.EnumText
import Verif.Props.DeriveWritten
import Verif.Spec.OldReader
import Verif.RpcgenProofs.NeverMisreads
import Verif.Props.NeverMisreads
import Verif.Spec.Strings
import Verif.RpcgenProofs.Panics
import Verif.Props.GenPanics
import Verif.Spec.SelfMembers
import Verif.RpcgenProofs.Returns
import Verif.Props.GenReturns
import Verif.Spec.NoEmpty
import Verif.Proofs.Linear
import Verif.RpcgenProofs.EveryType
import Verif.RpcgenProofs.Elements
import Verif.Props.GenWork
import Verif.Props.GenReserve
import Verif.Props.GenDepth
import Verif.Props.GenSize
import Verif.Props.TypeSize
import Verif.Props.Offsets
import Verif.Props.Alike
import Verif.Proofs.Writes
import Verif.RpcgenProofs.Writes
import Verif.Props.Writable
import Verif.Proofs.Inverse
import Verif.RpcgenProofs.Inverse
import Verif.Props.GenRoundtrip
import Verif.Props.GenWrites
import Verif.Props.Exchange
import Verif.Props.GenExact
