import Verif.Base
import Verif.Spec
import Verif.Matrix.Props
import Verif.Tree
import Verif.Arena
import Verif.Bdd.Props
import Verif.Bdd.Formula
import Verif.Zdd2.Agree
import Verif.Zdd2.Grouping
import Verif.TreeMany
import Verif.Zdd2.Serialize
import Verif.Status
import Verif.Zdd1.Serialize
import Verif.Zdd2.Exact
import Verif.Zdd1.Exact
import Verif.Bdd.NodeSerde
import Verif.ArenaForest
import Verif.ArenaBdd
import Verif.ArenaZdd1
import Verif.Bdd.More
import Verif.Bdd.Equal
import Verif.ArenaRepeat
import Verif.Zdd2.Split
import Verif.Trait
import Verif.Zdd2.Rerank
import Verif.Bdd.Machine
import Verif.ArenaOrd
import Verif.Zdd1.Meet
import Verif.Viewer
import Verif.Debug
import Verif.Zdd2.Foreign
import Verif.Sharp
import Verif.Zdd2.Machine
import Verif.ArenaLock
import Verif.Zdd2.Stack
import Verif.Zdd1.Stack
import Verif.Bdd.Stack
import Verif.TextStack
import Verif.ArenaForge
import Verif.ArenaRogue
import Verif.Cost
import Verif.Zdd2.Cost
import Verif.Bdd.Cost
import Verif.Matrix.Raw
import Verif.TreeDoc
import Verif.Bdd.Handmade
import Verif.ArenaClient
import Verif.Zdd1.Guided
import Verif.Zdd1.Foreign
import Verif.Zdd1.Cost
import Verif.ArenaApi
import Verif.ArenaText
import Verif.ArenaForestClient
import Verif.ArenaTreeClient
import Verif.Conform.Matrix
import Verif.Conform.Forest
import Verif.Conform.Tree
import Verif.Conform.Tree2
import Verif.Conform.Closet
import Verif.Conform.Zdd1
import Verif.Conform.Misc
import Verif.Zdd1.ForeignDoc
import Verif.Zdd1.Bags
import Verif.Zdd1.Semilattice
import Verif.ArenaMemory
import Verif.ArenaMemoryForest
import Verif.ArenaMemoryTree
import Verif.ArenaMemoryCloset
import Verif.ArenaMemoryWorld
import Verif.ArenaMemoryText
import Verif.ArenaMemoryForestClient
import Verif.ArenaMemoryTreeClient
import Verif.ArenaMemoryClosetClient
import Verif.ArenaClosetCrowd
import Verif.Wardrobe
import Verif.Bdd.Routes
import Verif.Matrix.Values
import Verif.Matrix.Counts
import Verif.Bdd.BuilderEq
import Verif.ArenaGrowth
import Verif.ArenaGrowthTree
import Verif.ArenaGrowthForest
import Verif.Zdd2.Keeps
import Verif.ArenaGrowthBuild
import Verif.TraitGuided
import Verif.ArenaRestart
import Verif.Bdd.RuleEffect
import Verif.Bdd.Parts
import Verif.Bdd.Renaming
import Verif.Rename
import Verif.Zdd2.Renaming
import Verif.Zdd1.Renaming
import Verif.Matrix.Renaming
