import Verif.Model.Runtime
import Verif.Tests
import Verif.Spec.Run
import Verif.Examples
import Verif.Props.Runtime
import Verif.Props.Decls
import Verif.Props.Sets
import Verif.Props.Lalr
import Verif.Props.Parse
import Verif.Props.Tables
import Verif.Props.Prec
import Verif.Props.Shape
import Verif.Props.Safe
import Verif.Props.Pack
import Verif.Props.Complete
import Verif.Props.Code
import Verif.Props.Prefix
import Verif.Props.Ints
import Verif.Props.Order
import Verif.Props.Ends
import Verif.Props.Stops
import Verif.Props.Reading
import Verif.Props.Exchange
import Verif.Props.Expand
import Verif.Props.Causes
import Verif.Props.Syntax
import Verif.Props.Recovery
import Verif.Props.Expected
import Verif.Props.Operators
import Verif.Props.Api
import Verif.Props.Linear
import Verif.Props.Sort
import Verif.Props.Report
import Verif.Props.OpSound
import Verif.Props.Nested
import Verif.Props.Blocks
import Verif.Props.Choice
import Verif.Props.Deterministic
import Verif.Props.Height
import Verif.Props.Wildcard
import Verif.Props.Borrow
import Verif.Props.Rename
import Verif.Props.Unread
import Verif.Spec.Padded
import Verif.Proofs.Padded
import Verif.Props.Padded
import Verif.Proofs.AnonOnce
import Verif.Proofs.Embed
import Verif.Proofs.EmbedActs
import Verif.Proofs.EmbedDecl
import Verif.Proofs.EmbedGen
import Verif.Props.Accept
import Verif.Props.Pads
import Verif.Spec.Tokens
import Verif.Proofs.EmbedRun
import Verif.Proofs.EmbedDrive
import Verif.Proofs.EmbedAccept
import Verif.Props.SameInputs
import Verif.Props.Notice
import Verif.Props.RuleOrder
import Verif.Props.Timing
import Verif.Props.ErrorOrder
import Verif.Props.Added
import Verif.Props.Carried
import Verif.Props.Outer
import Verif.Props.Plain
import Verif.Props.Limit
import Verif.Props.Repeat
import Verif.Props.Memory
