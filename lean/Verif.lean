import Verif.Props.Paths
import Verif.Props.Query
import Verif.Props.QueryExact
import Verif.Props.FormExact
import Verif.Props.Params
import Verif.Props.Response
import Verif.Props.Client
import Verif.Props.Exec
import Verif.Props.Compile
import Verif.Props.Accept
import Verif.Props.Builder
import Verif.Props.Stream
import Verif.Props.Names
import Verif.Props.Doc
import Verif.Props.Misc
import Verif.Props.Generate
import Verif.Props.Schema
import Verif.Props.Mock
import Verif.Props.MockNames
import Verif.Props.MockDots
import Verif.Props.Exactly
import Verif.Props.TypedLine
import Verif.Props.TypedBuilder
import Verif.Props.TypedPages
import Verif.Props.TypedStreams
import Verif.Props.TypedForms
import Verif.Props.Nullable
import Verif.Props.CliList
import Verif.Props.Cli
import Verif.Props.CliItems
import Verif.Props.Wire
import Verif.Props.WireGuards
import Verif.Props.FormStyle
import Verif.Props.Sent
import Verif.Props.Errors
import Verif.Props.Reply
import Verif.Props.ErrorText
import Verif.Props.Crate
import Verif.Props.Mocked
import Verif.Props.Settings
import Verif.Props.ClientStruct
import Verif.Props.Tasks
import Verif.Props.Argv
import Verif.Props.Confined
import Verif.Props.Route
import Verif.Props.ListWords
import Verif.Props.Words
import Verif.Props.RefDoc
import Verif.Props.Paging
import Verif.Props.Accepted
import Verif.Props.Compiles
import Verif.Props.CompilesDoc
import Verif.Props.Understood
import Verif.Props.WrapperNames
import Verif.Props.MockDoc
import Verif.Props.CliDoc
import Verif.Props.DocText
import Verif.Props.Evolve
import Verif.Props.Exact
import Verif.Props.RefDocExact
import Verif.Spec.EvolveCli
import Verif.Props.EvolveStream
import Verif.Props.EvolveCli
import Verif.Spec.Separate
import Verif.Props.Separate
import Verif.Model.Generator
import Verif.Spec.Generator
import Verif.Props.Generator
import Verif.Spec.MockedList
import Verif.Props.MockedList
import Verif.Spec.SchemaNotes
import Verif.Spec.SchemaPlain
import Verif.Props.SchemaNotes
import Verif.Props.SchemaPlain
import Verif.Spec.SchemaExact
import Verif.Props.SchemaExact
import Verif.Model.Typed
import Verif.Spec.Typed
import Verif.Props.Typed
import Verif.Props.TypedExact
import Verif.Props.TypedUse
import Verif.Spec.TypedReply
import Verif.Spec.Conforming
import Verif.Model.CliHelp
import Verif.Spec.CliHelp
import Verif.Props.TypedReply
import Verif.Props.Conforming
import Verif.Props.CliHelp
import Verif.Props.Roundtrip
