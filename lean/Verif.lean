import Verif.Props.RustCodec
import Verif.Props.RustStream
import Verif.Props.TsStream
import Verif.Props.TsCodec
import Verif.Props.CrossLanguage
import Verif.Props.Protocol
import Verif.Props.Generation
import Verif.Props.Workflow
import Verif.Props.RustServerMore
import Verif.Proofs.TsServerServe
import Verif.Proofs.TsServerCasts
import Verif.Props.TsServer
import Verif.Props.TsServerMore
import Verif.Props.TsServerHandlers
import Verif.Props.RustClient
import Verif.Props.TsClient
import Verif.Props.Files
import Verif.Props.Manifest
import Verif.Props.Imports
import Verif.Props.Cli
import Verif.Props.CliMore
import Verif.Props.TsGeneration
import Verif.Props.TsValidate
import Verif.Props.System
import Verif.Props.SystemCodec
import Verif.Props.SystemTexts
import Verif.Props.SystemLive
import Verif.Props.Network
import Verif.Props.NetworkLive
import Verif.Props.NetworkTsTs
import Verif.Props.NetworkCodec
import Verif.Props.NetworkRustTs
import Verif.Props.NetworkTsTsLive
import Verif.Props.NetworkTsTsQuiet
import Verif.Props.NetworkQuiet
import Verif.Props.SystemQuiet
import Verif.Props.Puml
import Verif.Props.NetworkTextsQuiet
import Verif.Props.NetworkTsTsShake
import Verif.Props.NetworkTsRustShake
import Verif.Props.NetworkTextsReady
import Verif.Props.SameBytes
import Verif.Props.BothRead
import Verif.Props.BothAccepted
