import Verif.Basic
import Verif.DFS.Core
import Verif.DFS.Forest
import Verif.DFS.Low
import Verif.DFS.Model
import Verif.DFS.Reach
import Verif.DFS.Refine
import Verif.DFS.Sort
import Verif.Draw.Check
import Verif.Draw.Columns
import Verif.Draw.Model
import Verif.Draw.Order
import Verif.Draw.Picture
import Verif.Draw.Place
import Verif.Draw.Ranges
import Verif.Draw.Render
import Verif.Draw.Rendition
import Verif.Draw.Rows
import Verif.Draw.Sort
import Verif.Draw.Store
import Verif.Draw.Sweep
import Verif.Draw.Whole
import Verif.Embed.Bicomps
import Verif.Embed.Complete
import Verif.Embed.Down
import Verif.Embed.DownEnd
import Verif.Embed.DownLoop
import Verif.Embed.Edge
import Verif.Embed.Final
import Verif.Embed.Frames
import Verif.Embed.Ideal
import Verif.Embed.Init
import Verif.Embed.InitEnter
import Verif.Embed.InitLists
import Verif.Embed.InitLoop
import Verif.Embed.InitOuter
import Verif.Embed.InitReady
import Verif.Embed.InitSearch
import Verif.Embed.InitSort
import Verif.Embed.InitStart
import Verif.Embed.InitVertex
import Verif.Embed.InitVisit
import Verif.Embed.IsoAdd
import Verif.Embed.IsoChord
import Verif.Embed.IsoDelete
import Verif.Embed.IsoEnds
import Verif.Embed.IsoFrame
import Verif.Embed.IsoInit
import Verif.Embed.IsoJoin
import Verif.Embed.IsoKeep
import Verif.Embed.IsoMark
import Verif.Embed.IsoMinor
import Verif.Embed.IsoOrient
import Verif.Embed.IsoOuter
import Verif.Embed.IsoOuterEnd
import Verif.Embed.IsoPart
import Verif.Embed.IsoPath
import Verif.Embed.IsoPlot
import Verif.Embed.IsoRing
import Verif.Embed.IsoScene
import Verif.Embed.IsoSeen
import Verif.Embed.IsoStage
import Verif.Embed.IsoSub
import Verif.Embed.IsoVeil
import Verif.Embed.IsoWalk
import Verif.Embed.Isolate
import Verif.Embed.JoinAll
import Verif.Embed.Lists
import Verif.Embed.Merge
import Verif.Embed.Model
import Verif.Embed.Moments
import Verif.Embed.Names
import Verif.Embed.NoOuter
import Verif.Embed.Obstacle
import Verif.Embed.Orient
import Verif.Embed.Origin
import Verif.Embed.Raw
import Verif.Embed.Reflect
import Verif.Embed.Rep
import Verif.Embed.Sound
import Verif.Embed.Stages
import Verif.Embed.State
import Verif.Embed.Step
import Verif.Embed.Steps
import Verif.Embed.Tight
import Verif.Embed.Up
import Verif.Embed.UpLoop
import Verif.Embed.Ups
import Verif.Embed.Walk
import Verif.Ext.Lemmas
import Verif.Ext.Model
import Verif.Ext.Steps
import Verif.Graph.Agree
import Verif.Graph.Build
import Verif.Graph.Capacity
import Verif.Graph.CapacityLemmas
import Verif.Graph.Exec
import Verif.Graph.History
import Verif.Graph.Identify
import Verif.Graph.Links
import Verif.Graph.Merge
import Verif.Graph.Model
import Verif.Graph.Query
import Verif.Graph.Sim
import Verif.Graph.Store
import Verif.Graph.Unmerge
import Verif.Graph.Vertex
import Verif.Graph.VertexLemmas
import Verif.IO.G6
import Verif.IO.G6Lemmas
import Verif.IO.G6Read
import Verif.IO.Leda
import Verif.IO.Lex
import Verif.IO.Matrix
import Verif.IO.MatrixText
import Verif.IO.ReadAny
import Verif.IO.ReadText
import Verif.IO.Reader
import Verif.IO.RoundTrip
import Verif.IO.Saved
import Verif.IO.SavedOps
import Verif.IO.Text
import Verif.IO.WriteText
import Verif.Map.Carry
import Verif.Map.Count
import Verif.Map.Graph
import Verif.Map.Join
import Verif.Map.Minor
import Verif.Map.Outer
import Verif.Map.Path
import Verif.Map.Perm
import Verif.Map.Restrict
import Verif.Memory.Heap
import Verif.Memory.HeapLemmas
import Verif.Props.Capacity
import Verif.Props.Certificates
import Verif.Props.Columns
import Verif.Props.DFS
import Verif.Props.DrawSort
import Verif.Props.Drawing
import Verif.Props.EdgeStore
import Verif.Props.Embed
import Verif.Props.EmbedComplete
import Verif.Props.EmbedInit
import Verif.Props.EmbedIsolate
import Verif.Props.EmbedNames
import Verif.Props.EmbedOuter
import Verif.Props.EmbedOuterKuratowski
import Verif.Props.EmbedSteps
import Verif.Props.EmbedTotal
import Verif.Props.Ext
import Verif.Props.Features
import Verif.Props.G6
import Verif.Props.Identify
import Verif.Props.Leda
import Verif.Props.ListColl
import Verif.Props.Memory
import Verif.Props.Obstructions
import Verif.Props.OuterCertificates
import Verif.Props.Random
import Verif.Props.RandomEx
import Verif.Props.Rows
import Verif.Props.Stack
import Verif.Props.Stored
import Verif.Props.StrBuf
import Verif.Props.StrOrFile
import Verif.Props.Tests
import Verif.Props.Text
import Verif.Props.Vertices
import Verif.Random.Ends
import Verif.Random.Lemmas
import Verif.Random.Model
import Verif.Random.Move
import Verif.Random.Number
import Verif.Random.Planar
import Verif.Spec.Adjacency
import Verif.Spec.Copy
import Verif.Spec.DFS
import Verif.Spec.Drawing
import Verif.Spec.EdgeStore
import Verif.Spec.Embed
import Verif.Spec.Ext
import Verif.Spec.Features
import Verif.Spec.Graph6
import Verif.Spec.Merge
import Verif.Spec.Minor
import Verif.Spec.Reader
import Verif.Spec.Tests
import Verif.Spec.Text
import Verif.Test.Certificates
import Verif.Test.Embedding
import Verif.Test.Euler
import Verif.Test.External
import Verif.Test.Faces
import Verif.Test.Facial
import Verif.Test.Features
import Verif.Test.Follow
import Verif.Test.Image
import Verif.Test.Kuratowski
import Verif.Test.Model
import Verif.Test.NonPlanar
import Verif.Test.Obstruct
import Verif.Test.Paths
import Verif.Test.Plane
import Verif.Test.Sub
import Verif.Test.SubSort
import Verif.Test.Subdiv
import Verif.Test.Theta
import Verif.Test.ThetaSub
import Verif.Util.ListColl
import Verif.Util.ListCollLemmas
import Verif.Util.Stack
import Verif.Util.StrBuf
import Verif.Util.StrOrFile
import Verif.Util.StrOrFileLemmas
