import Verif.Basic
import Verif.Crypto
import Verif.Entry
import Verif.StoreSpec
import Verif.StoreLemmas
import Verif.AMap
import Verif.MemStore
import Verif.Base64
import Verif.Msgpack
import Verif.Api
import Verif.Codec
import Verif.CodecLemmas
import Verif.SqlStore
import Verif.Lru
import Verif.Server
import Verif.Logic
import Verif.HandlerSpec
import Verif.HandlerProofs
import Verif.System
import Verif.Props.Store
import Verif.SystemLemmas
import Verif.Sizes
import Verif.Examples
import Verif.Props.Vocab
import Verif.Props.Session
import Verif.Props.Entries
import Verif.Props.Keys
import Verif.Props.Usage
import Verif.Props.DeepUse
import Verif.Frame
import Verif.SecretStream
import Verif.Handshake
import Verif.Client
import Verif.ClientLemmas
import Verif.Props.Channel
import Verif.Props.Connection
import Verif.Sender
import Verif.Fallback
import Verif.FallbackLemmas
import Verif.Props.Sender
import Verif.Props.Fallback
import Verif.PwLimits
import Verif.SeedBundle
import Verif.BundleLemmas
import Verif.Props.PwLimits
import Verif.Props.Bundle
import Verif.Config
import Verif.ConfigLemmas
import Verif.ServerStart
import Verif.Props.Config
import Verif.PidFile
import Verif.Props.PidFile
import Verif.Migration
import Verif.Props.Migration
import Verif.Pool
import Verif.Props.Pool
import Verif.KeyPragma
import Verif.Props.KeyPragma
import Verif.Cli
import Verif.CliLemmas
import Verif.Props.Init
import Verif.Props.Cli
import Verif.SecrecySpec
import Verif.Secrecy
import Verif.Oblivious
import Verif.Props.Secrecy
import Verif.Labels
import Verif.Props.Labels
import Verif.ListSizes
import Verif.Props.Listing

import Verif.Symbolic
import Verif.SymbolicLemmas
import Verif.Props.Symbolic

import Verif.World
import Verif.WorldLemmas
import Verif.Props.World
import Verif.WorldSeq
import Verif.Props.WorldSeq
import Verif.Props.WorldEnd

import Verif.KeystoreSpec
import Verif.ClientApi
import Verif.KeystoreLemmas
import Verif.Linearizable
import Verif.KeystorePoints
import Verif.KeystoreLin
import Verif.KeystoreLinProof
import Verif.KeystoreRoom
import Verif.Props.Keystore
import Verif.Props.Created

import Verif.Accept
import Verif.AcceptLemmas
import Verif.Props.Accept
import Verif.Socket
import Verif.Props.Socket
import Verif.Flow
import Verif.Props.Flow
import Verif.ClientMethods
import Verif.WorldLin
import Verif.Props.EndToEnd
import Verif.Props.EndToEndEx
import Verif.Props.FallbackGens
import Verif.Props.Json
import Verif.Local
import Verif.LocalLemmas
import Verif.Props.Local
import Verif.Multi
import Verif.Props.Multi
import Verif.Props.Codec
import Verif.CodecSpec
import Verif.MsgpackWire
import Verif.CodecExact
import Verif.BundleExact
import Verif.Props.Formats
import Verif.JsonGrammar
import Verif.JsonReplies
import Verif.Life
import Verif.Props.Life
import Verif.Tls
import Verif.Props.Tls
import Verif.MultiLin
import Verif.MultiRun
import Verif.TimedHistory
import Verif.HandlePoints
import Verif.MultiLinProof
import Verif.Props.MultiLin
import Verif.Boot
import Verif.Props.Boot
import Verif.MWorld
import Verif.MWorldLemmas
import Verif.MWorldRun
import Verif.Props.MWorld
import Verif.Props.MWorldEx
import Verif.Props.MWorldCor
import Verif.MigrRace
import Verif.MigrRaceLemmas
import Verif.Props.MigrRace
import Verif.Props.AtRest
import Verif.Props.InMemory
import Verif.Props.Replies
import Verif.Props.Named
import Verif.Props.Urls
import Verif.Durable
import Verif.Props.Durable
import Verif.Dial
import Verif.DialLemmas
import Verif.Props.Dial
import Verif.Props.DialEx
import Verif.Props.Silent
import Verif.Props.Gate
import Verif.Props.GateEx
import Verif.KWorld
import Verif.KWorldLemmas
import Verif.Props.KWorld
import Verif.Props.KWorldEx
import Verif.Blind
import Verif.Props.Blind
import Verif.BlindWorld
import Verif.Props.BlindWorld
import Verif.Props.Usable
import Verif.InFlight
import Verif.Props.InFlight
import Verif.Props.Panic
import Verif.Props.Exact
import Verif.Progress
import Verif.Props.Progress
import Verif.Props.ProgressEx
import Verif.Props.Backpressure
import Verif.Props.BackpressureEx
import Verif.Fifo
import Verif.Props.Starve
import Verif.Props.StarveEx
import Verif.Props.Order
import Verif.Props.StarveLim
import Verif.Props.StarveFull
import Verif.Props.StarveLimEx
