import Verif.Actions.ActionSet
import Verif.Actions.Foata
import Verif.Actions.GroupLemmas
import Verif.Actions.GroupView
import Verif.Actions.Index
import Verif.Actions.Lemmas
import Verif.Actions.Model
import Verif.Actions.RedLemmas
import Verif.Actions.Redundant
import Verif.Actions.Remove
import Verif.Actions.Sem
import Verif.Actions.SetLemmas
import Verif.Actions.SetRebuild
import Verif.Actions.Spec
import Verif.Alias.Lemmas
import Verif.Alias.Model
import Verif.Alias.RuleLemmas
import Verif.Alias.RuleSim
import Verif.Alias.Rules
import Verif.Alias.Sim
import Verif.Alias.Spec
import Verif.Bdd.Lemmas
import Verif.Bdd.Matches
import Verif.Bdd.Model
import Verif.Bdd.Spec
import Verif.Bdd.WcLemmas
import Verif.Check.ActLemmas
import Verif.Check.DDLemmas
import Verif.Check.Lemmas
import Verif.Check.Model
import Verif.Check.Pipeline
import Verif.Check.Spec
import Verif.Check.TunnelPipeline
import Verif.Cli.Model
import Verif.Collect.Model
import Verif.Common
import Verif.Cudd.Index
import Verif.Cudd.Iter
import Verif.Cudd.IterLemmas
import Verif.Cudd.Lemmas
import Verif.Cudd.Model
import Verif.Cudd.Refs
import Verif.Cudd.RefsLemmas
import Verif.Cudd.RefsSpec
import Verif.Deps.Batch
import Verif.Deps.Dag
import Verif.Deps.GotoLemmas
import Verif.Deps.Incremental
import Verif.Deps.Indirect
import Verif.Deps.IndirectLemmas
import Verif.Deps.Insert
import Verif.Deps.Lemmas
import Verif.Deps.Model
import Verif.Deps.OfRule
import Verif.Deps.PathSpec
import Verif.Deps.Prefix
import Verif.Deps.PrefixLemmas
import Verif.Deps.PrefixSpec
import Verif.Deps.Ruleset
import Verif.Deps.RulesetLemmas
import Verif.Deps.RulesetSpec
import Verif.Deps.Spec
import Verif.Deps.TunnelLemmas
import Verif.Deps.TunnelSpec
import Verif.DictLemmas
import Verif.Eager.Form
import Verif.Eager.Lemmas
import Verif.Eager.Model
import Verif.Eager.Spec
import Verif.Fib.Lemmas
import Verif.Fib.Model
import Verif.Fib.Spec
import Verif.Files.Model
import Verif.Files.Ruleset
import Verif.Files.Spec
import Verif.Fmt.Lemmas
import Verif.Fmt.Model
import Verif.Graph.Build
import Verif.Graph.BuildLemmas
import Verif.Graph.BuildSpec
import Verif.Graph.Draw
import Verif.Graph.Label
import Verif.Graph.Layout
import Verif.Graph.LayoutLemmas
import Verif.Graph.LayoutSpec
import Verif.Groups.KeyLemmas
import Verif.Groups.Lemmas
import Verif.Groups.Model
import Verif.Groups.Spec
import Verif.Heap.CallLemmas
import Verif.Heap.Gc
import Verif.Heap.GcLemmas
import Verif.Heap.Lemmas
import Verif.Heap.Model
import Verif.Hs.Lemmas
import Verif.Hs.Model
import Verif.Hs.Spec
import Verif.Main.DiffLemmas
import Verif.Main.DiffSpec
import Verif.Main.Difference
import Verif.Main.Lemmas
import Verif.Main.Model
import Verif.Main.RevLemmas
import Verif.Main.Reverse
import Verif.Match.Layout
import Verif.Match.LayoutLemmas
import Verif.Match.Lemmas
import Verif.Match.MatchLemmas
import Verif.Match.Model
import Verif.Match.Names
import Verif.Match.NamesLemmas
import Verif.Match.Ops
import Verif.Match.RevLemmas
import Verif.Match.Spec
import Verif.Match.Text
import Verif.Match.TextLemmas
import Verif.Morton.Lemmas
import Verif.Morton.Model
import Verif.Normalise.Lemmas
import Verif.Normalise.Model
import Verif.Normalise.Spec
import Verif.OpenFlow.Consts
import Verif.Ovs.ActionLemmas
import Verif.Ovs.Doc
import Verif.Ovs.DocActs
import Verif.Ovs.DocLine
import Verif.Ovs.DocMatch
import Verif.Ovs.DocNum
import Verif.Ovs.FileDoc
import Verif.Ovs.FileLemmas
import Verif.Ovs.FileModel
import Verif.Ovs.FileWrite
import Verif.Ovs.InstLemmas
import Verif.Ovs.Lemmas
import Verif.Ovs.LineLemmas
import Verif.Ovs.Model
import Verif.Ovs.RuleLemmas
import Verif.Props.ActionSet
import Verif.Props.ActionTypes
import Verif.Props.Actions
import Verif.Props.ActionsSem
import Verif.Props.Alias
import Verif.Props.Args
import Verif.Props.Auto
import Verif.Props.Bdd
import Verif.Props.BuildGraph
import Verif.Props.Canonical
import Verif.Props.Check
import Verif.Props.Cli
import Verif.Props.Collect
import Verif.Props.Consts
import Verif.Props.Cudd
import Verif.Props.CuddRefs
import Verif.Props.CuddResults
import Verif.Props.Deps
import Verif.Props.DiagramMatches
import Verif.Props.Difference
import Verif.Props.DifferenceTunnel
import Verif.Props.DirectRuleset
import Verif.Props.DirectTunnel
import Verif.Props.Draw
import Verif.Props.Eager
import Verif.Props.EgressOverlap
import Verif.Props.Equality
import Verif.Props.Fib
import Verif.Props.Files
import Verif.Props.Fmt
import Verif.Props.Gc
import Verif.Props.GroupView
import Verif.Props.Groups
import Verif.Props.HeapTable
import Verif.Props.Hs
import Verif.Props.Index
import Verif.Props.Indirect
import Verif.Props.IndirectTunnel
import Verif.Props.Label
import Verif.Props.Layout
import Verif.Props.Main
import Verif.Props.MainReverse
import Verif.Props.MainTunnel
import Verif.Props.Match
import Verif.Props.MatchOps
import Verif.Props.Morton
import Verif.Props.Move
import Verif.Props.MovePush
import Verif.Props.Names
import Verif.Props.NamesCheck
import Verif.Props.NamesOps
import Verif.Props.NodeHash
import Verif.Props.NodeIndex
import Verif.Props.Normalise
import Verif.Props.Ovs
import Verif.Props.OvsFile
import Verif.Props.OvsRead
import Verif.Props.OvsWrite
import Verif.Props.Paths
import Verif.Props.Plus
import Verif.Props.Prefix
import Verif.Props.Redundant
import Verif.Props.Reverse
import Verif.Props.ReverseTunnel
import Verif.Props.Rule
import Verif.Props.RuleText
import Verif.Props.Ruleset
import Verif.Props.RulesetTunnel
import Verif.Props.Ryu
import Verif.Props.RyuGroups
import Verif.Props.SaveLoad
import Verif.Props.Select
import Verif.Props.SetFields
import Verif.Props.Shim
import Verif.Props.ShimPrint
import Verif.Props.Store
import Verif.Props.Text
import Verif.Props.Tree
import Verif.Props.Ttp
import Verif.Props.Tunnel
import Verif.Props.TunnelMerge
import Verif.Props.Util
import Verif.Props.Walk
import Verif.Props.Wildcard
import Verif.Reverse.Lemmas
import Verif.Reverse.Model
import Verif.Rule.Canonical
import Verif.Rule.Equality
import Verif.Rule.InstLemmas
import Verif.Rule.MergeLemmas
import Verif.Rule.MergeLemmas2
import Verif.Rule.MergeLemmas3
import Verif.Rule.Model
import Verif.Rule.MoveLemmas
import Verif.Rule.ReqLemmas
import Verif.Rule.SetFields
import Verif.Rule.SetSem
import Verif.Rule.Spec
import Verif.Rule.TunnelLemmas
import Verif.Rule.TunnelMerge
import Verif.Rule.TunnelSound
import Verif.Rule.TunnelSource
import Verif.Rule.TunnelSteps
import Verif.Ruleset.Agree
import Verif.Ruleset.Condense
import Verif.Ruleset.Lemmas
import Verif.Ruleset.Model
import Verif.Ruleset.Order
import Verif.Ruleset.Scale
import Verif.Ruleset.Single
import Verif.Ruleset.Spec
import Verif.Ruleset.TunnelLoop
import Verif.Ruleset.TunnelOrder
import Verif.Ruleset.TunnelSingle
import Verif.Ruleset.TunnelSpec
import Verif.Ryu.Auto
import Verif.Ryu.GroupLemmas
import Verif.Ryu.InstLemmas
import Verif.Ryu.Lemmas
import Verif.Ryu.Model
import Verif.Ryu.Spec
import Verif.Select.Lemmas
import Verif.Select.Loop
import Verif.Select.Model
import Verif.Shim.Lemmas
import Verif.Shim.MergeLemmas
import Verif.Shim.Model
import Verif.Shim.NormLemmas
import Verif.Shim.ObjLemmas
import Verif.Shim.PathLemmas
import Verif.Shim.Paths
import Verif.Shim.Print
import Verif.Shim.PrintLemmas
import Verif.Shim.PrintSpec
import Verif.Shim.Spec
import Verif.Store.Args
import Verif.Store.Hash
import Verif.Store.Lemmas
import Verif.Store.Model
import Verif.Store.Spec
import Verif.Store.Walk
import Verif.Store.WalkLemmas
import Verif.Store.WalkSpec
import Verif.Suite.Actions
import Verif.Suite.Bdd
import Verif.Suite.Compress
import Verif.Suite.Deps
import Verif.Suite.Merging
import Verif.Suite.Normalise
import Verif.Suite.Ovs
import Verif.Suite.Ryu
import Verif.Text.Codes
import Verif.Text.Lemmas
import Verif.Text.Model
import Verif.Tree.Lemmas
import Verif.Tree.Model
import Verif.Tree.Spec
import Verif.Ttp.Lemmas
import Verif.Ttp.Model
import Verif.Ttp.Spec
import Verif.Util.Model
import Verif.Util.Spec
import Verif.Wildcard.Lemmas
import Verif.Wildcard.Model
import Verif.Wildcard.Spec
