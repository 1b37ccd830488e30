import Verif.Model.Base
import Verif.Model.Rule
import Verif.Model.Grammar
import Verif.Model.Uri
import Verif.Spec.Abnf
import Verif.Spec.Components
import Verif.Proofs.Peg
import Verif.Proofs.PureGrammar
import Verif.Proofs.Lang
import Verif.Proofs.Chars
import Verif.Proofs.SoundHost
import Verif.Proofs.CompleteHost
import Verif.Proofs.CompleteV6
import Verif.Proofs.HostExact
import Verif.Proofs.SoundUri
import Verif.Proofs.CompleteUri
import Verif.Proofs.Fields
import Verif.Proofs.TextUri
import Verif.Proofs.Views
import Verif.Proofs.Valid
import Verif.Props.Parse
import Verif.Spec.Peg
import Verif.Props.Rule
import Verif.Spec.Resolve
import Verif.Proofs.Resolve
import Verif.Props.Resolve
import Verif.Model.Ranges
import Verif.Props.Ranges
import Verif.Model.Pct
import Verif.Spec.Pct
import Verif.Proofs.Pct
import Verif.Props.Pct
import Verif.Model.Punycode
import Verif.Spec.Punycode
import Verif.Proofs.PunyArith
import Verif.Proofs.Punycode
import Verif.Proofs.PunyCut
import Verif.Props.Punycode
import Verif.Model.Icubaby
import Verif.Spec.Utf
import Verif.Proofs.Utf8
import Verif.Proofs.Utf8Dec
import Verif.Proofs.Utf16
import Verif.Proofs.View
import Verif.Proofs.Bytes
import Verif.Proofs.Icu2
import Verif.Props.Icubaby
import Verif.Model.PartsCodec
import Verif.Spec.Parts
import Verif.Proofs.PartsVisit
import Verif.Proofs.PartsHost
import Verif.Proofs.PartsCodec
import Verif.Proofs.PartsField
import Verif.Props.PartsCodec
import Verif.Model.Tool
import Verif.Spec.Chars
import Verif.Spec.Tool
import Verif.Proofs.CharSafe
import Verif.Proofs.JoinText
import Verif.Proofs.Tool
import Verif.Props.Safety
import Verif.Props.Tool
import Verif.Props.Pipeline
import Verif.Proofs.IterPos
import Verif.Proofs.Maximal
import Verif.Props.IcuReuse
import Verif.Proofs.History
import Verif.Props.IcuHistory
import Verif.Props.HostSafety
import Verif.Model.Cost
import Verif.Proofs.Cost
import Verif.Proofs.CostBound
import Verif.Proofs.CostGrammar
import Verif.Props.Cost
import Verif.Props.HostExact2
import Verif.Props.RoundTrip
import Verif.Model.Shared
import Verif.Props.Shared
import Verif.Model.Refs
import Verif.Props.Refs
import Verif.Props.Traversal
import Verif.Model.PunyCost
import Verif.Proofs.PunyCost
import Verif.Props.PunyCost
import Verif.Model.Alias
import Verif.Proofs.Alias
import Verif.Props.Alias
import Verif.Model.Throw
import Verif.Proofs.Throw
import Verif.Props.Throw
import Verif.Spec.Calls
import Verif.Proofs.ByteCalls
import Verif.Props.ByteCalls
import Verif.Props.Fuzz
import Verif.Tests.Uri
import Verif.Tests.Pct
import Verif.Tests.Punycode
import Verif.Tests.Ranges
import Verif.Tests.Parts
import Verif.Model.PctWide
import Verif.Spec.PctWide
import Verif.Proofs.PctWide
import Verif.Props.PctWide
import Verif.Model.ParseThrow
import Verif.Proofs.ParseThrow
import Verif.Props.ParseThrow
import Verif.Model.Stream
import Verif.Proofs.Stream
import Verif.Props.Stream
import Verif.Model.Locale
import Verif.Spec.Locale
import Verif.Proofs.Locale
import Verif.Proofs.LocaleGrammar
import Verif.Proofs.LocaleLeaf
import Verif.Props.Locale
import Verif.Props.Chain
import Verif.Model.SinglePass
import Verif.Proofs.SinglePass
import Verif.Props.SinglePass
import Verif.Model.Threads
import Verif.Props.Threads
import Verif.Props.ThreadText
import Verif.Spec.AbnfNotation
import Verif.Spec.UriAbnf
import Verif.Proofs.UriAbnf
import Verif.Props.UriAbnf
import Verif.Model.Views
import Verif.Props.Views
import Verif.Props.CharMatch
import Verif.Model.OutIter
import Verif.Props.OutIter
import Verif.Props.Commute
import Verif.Model.Vec
import Verif.Props.Vec
import Verif.Model.OutThrow
import Verif.Props.OutThrow
import Verif.Props.Depends
import Verif.Model.Effects
import Verif.Spec.Effects
import Verif.Props.Effects
import Verif.Model.CodecCost
import Verif.Proofs.CodecCost
import Verif.Proofs.CodecBound
import Verif.Props.CodecCost
import Verif.Props.Composed
import Verif.Proofs.ViewExact
import Verif.Proofs.ByteView
import Verif.Props.ByteView
import Verif.Proofs.Room
import Verif.Props.Room
import Verif.Props.Exchange
import Verif.Model.InPlace
import Verif.Props.InPlace
import Verif.Props.JoinSize
import Verif.Model.IcuInPlace
import Verif.Props.IcuInPlace
import Verif.Props.ReadAhead
import Verif.Props.CodecSize
import Verif.Props.Assoc
import Verif.Props.WriteThrow
import Verif.Props.Pieces
import Verif.Props.Laws
import Verif.Props.Twice
import Verif.Props.Shorter
import Verif.Props.Search
import Verif.Props.Forward
import Verif.Props.Normal
import Verif.Props.HostNormal
import Verif.Props.Strict
import Verif.Props.Case
import Verif.Model.Depth
import Verif.Props.Depth
import Verif.Model.Index
import Verif.Props.Index
import Verif.Model.Space
import Verif.Props.Space
import Verif.Props.Contain
import Verif.Props.Readers
import Verif.Props.Lists
import Verif.Props.Begins
import Verif.Props.Short
import Verif.Props.Local
import Verif.Props.Append
import Verif.Props.Fill
import Verif.Props.HoleHost
import Verif.Props.Moved
import Verif.Props.Apart
import Verif.Props.PctSearch
import Verif.Props.RefHole
import Verif.Props.SameBase
