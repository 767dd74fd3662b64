import Verif.Check.RepoTests
import Verif.Model.Act
import Verif.Model.App
import Verif.Model.Conn
import Verif.Model.Context
import Verif.Model.Cost
import Verif.Model.Example
import Verif.Model.Flatten
import Verif.Model.Form
import Verif.Model.HMap
import Verif.Model.HeaderName
import Verif.Model.Http
import Verif.Model.Response
import Verif.Model.Router
import Verif.Model.Server
import Verif.Model.Static
import Verif.Model.Str
import Verif.Model.Trie
import Verif.Model.UrlEncoded
import Verif.Proofs.Act
import Verif.Proofs.Bare
import Verif.Proofs.Blind
import Verif.Proofs.Bridge
import Verif.Proofs.Complain
import Verif.Proofs.Cost
import Verif.Proofs.Elsewhere
import Verif.Proofs.Everywhere
import Verif.Proofs.First
import Verif.Proofs.Flatten
import Verif.Proofs.Focus
import Verif.Proofs.Follow
import Verif.Proofs.Form
import Verif.Proofs.FormGroup
import Verif.Proofs.FormStruct
import Verif.Proofs.HMap
import Verif.Proofs.Insert
import Verif.Proofs.InsertLoop
import Verif.Proofs.Letters
import Verif.Proofs.LogEq
import Verif.Proofs.LogFacts
import Verif.Proofs.LogFacts2
import Verif.Proofs.Names
import Verif.Proofs.Params
import Verif.Proofs.Place
import Verif.Proofs.Prefix
import Verif.Proofs.Program
import Verif.Proofs.Rep
import Verif.Proofs.RepOps
import Verif.Proofs.RunRegs
import Verif.Proofs.Scalar
import Verif.Proofs.Search
import Verif.Proofs.Serve
import Verif.Proofs.Shift
import Verif.Proofs.Source
import Verif.Proofs.SpecBasics
import Verif.Proofs.Static
import Verif.Proofs.Str
import Verif.Proofs.Tally
import Verif.Proofs.Turn
import Verif.Proofs.Twice
import Verif.Proofs.UrlEncoded
import Verif.Proofs.View
import Verif.Proofs.Way
import Verif.Proofs.WayInsert
import Verif.Proofs.WayProg
import Verif.Props.Accept
import Verif.Props.Affected
import Verif.Props.Answers
import Verif.Props.AnyPath
import Verif.Props.Apart
import Verif.Props.AppCommon
import Verif.Props.AtMost
import Verif.Props.Behind
import Verif.Props.BehindServices
import Verif.Props.Blind
import Verif.Props.Blindly
import Verif.Props.Build
import Verif.Props.Caught
import Verif.Props.CaughtWild
import Verif.Props.Chain
import Verif.Props.Colons
import Verif.Props.Common
import Verif.Props.Complain
import Verif.Props.Config
import Verif.Props.Conn
import Verif.Props.ContentType
import Verif.Props.Cost
import Verif.Props.Dispatch
import Verif.Props.Elsewhere
import Verif.Props.Exact
import Verif.Props.Example
import Verif.Props.ExampleFiles
import Verif.Props.ExampleTotal
import Verif.Props.ExampleUser
import Verif.Props.Fair
import Verif.Props.FlatComplain
import Verif.Props.FlatOrder
import Verif.Props.Flatten
import Verif.Props.Form
import Verif.Props.Further
import Verif.Props.Guard
import Verif.Props.HeaderName
import Verif.Props.Isolation
import Verif.Props.Json
import Verif.Props.Letters
import Verif.Props.Logger
import Verif.Props.LoggerOut
import Verif.Props.Mainly
import Verif.Props.MainlyConn
import Verif.Props.Methods
import Verif.Props.Middleware
import Verif.Props.Mount
import Verif.Props.Names
import Verif.Props.Numeric
import Verif.Props.OneByOne
import Verif.Props.OneByOneConn
import Verif.Props.Options
import Verif.Props.Order
import Verif.Props.Output
import Verif.Props.Parts
import Verif.Props.Percent
import Verif.Props.Provide
import Verif.Props.Query
import Verif.Props.Reach
import Verif.Props.Readme
import Verif.Props.Rejected
import Verif.Props.Reorder
import Verif.Props.Respond
import Verif.Props.Slashes
import Verif.Props.Solo
import Verif.Props.Sound
import Verif.Props.Specific
import Verif.Props.Start
import Verif.Props.State
import Verif.Props.Static
import Verif.Props.StaticExact
import Verif.Props.Submit
import Verif.Props.Together
import Verif.Props.Total
import Verif.Props.Turn
import Verif.Props.Unmount
import Verif.Props.Unseen
import Verif.Props.UrlEncoded
import Verif.Props.Value
import Verif.Props.Whole
import Verif.Props.Wire
import Verif.Spec.Alike
import Verif.Spec.Answers
import Verif.Spec.Apart
import Verif.Spec.Behind
import Verif.Spec.Blindly
import Verif.Spec.Calls
import Verif.Spec.Chain
import Verif.Spec.Complain
import Verif.Spec.Conn
import Verif.Spec.Cost
import Verif.Spec.Elsewhere
import Verif.Spec.Example
import Verif.Spec.Flat
import Verif.Spec.FlatComplain
import Verif.Spec.FlatOrder
import Verif.Spec.Flatten
import Verif.Spec.Follow
import Verif.Spec.Form
import Verif.Spec.Guard
import Verif.Spec.HeaderName
import Verif.Spec.Isolation
import Verif.Spec.Letters
import Verif.Spec.Log
import Verif.Spec.Mainly
import Verif.Spec.Names
import Verif.Spec.Observe
import Verif.Spec.OneByOne
import Verif.Spec.OneByOneConn
import Verif.Spec.Options
import Verif.Spec.Pages
import Verif.Spec.Parts
import Verif.Spec.Pattern
import Verif.Spec.Provide
import Verif.Spec.Reading
import Verif.Spec.Respond
import Verif.Spec.Routing
import Verif.Spec.Runs
import Verif.Spec.Server
import Verif.Spec.Start
import Verif.Spec.Static
import Verif.Spec.StaysIn
import Verif.Spec.Submit
import Verif.Spec.Tally
import Verif.Spec.Text
import Verif.Spec.Together
import Verif.Spec.Turn
import Verif.Spec.Unmount
import Verif.Spec.UrlEncoded
import Verif.Spec.Whole
import Verif.Spec.Wire
