# Code that is modelled

Source lines (in /repo) cited by the definitions of lean/Verif/Model (made by tools/tables.py).
Code that is not listed is not modelled; see "Trusted base" in DESIGN.md for what that means.

## cdecode.cpp

| lines | Lean definition | file |
|---|---|---|
| 20-27 | `decodeValue` | Model/Base64.lean |
| 22 | `decoding` | Model/Base64.lean |
| 35-102 | `Dec` | Model/Base64.lean |
| 43-99 | `decLoop` | Model/Base64.lean |
| 47-97 | `decPut` | Model/Base64.lean |

## cencode.cpp

| lines | Lean definition | file |
|---|---|---|
| 19-24 | `encodeValue` | Model/Base64.lean |
| 21 | `alphabet` | Model/Base64.lean |
| 26-90 | `encBlock` | Model/Base64.lean |
| 92-113 | `encEnd` | Model/Base64.lean |

## conduit_bitwidth_style_types.h.in

| lines | Lean definition | file |
|---|---|---|
| 184-201 | `TypeId` | Model/DataType.lean |
| 184-201 | `ETy` | Model/MeshTree.lean |

## conduit_blueprint_mcarray.cpp

| lines | Lean definition | file |
|---|---|---|
| 63-139 | `verify` | Model/Mcarray.lean |
| 63-139 | `mcarrayVerify` | Model/MeshVerify.lean |
| 80-134 | `verifyLoop` | Model/Mcarray.lean |
| 85-134 | `mcarrayLoop` | Model/MeshVerify.lean |
| 144-188 | `toContiguous` | Model/McarrayConv.lean |
| 152-180 | `contiguousTypes` | Model/Mcarray.lean |
| 176 | `schemaPut` | Model/McarrayConv.lean |
| 193-247 | `toInterleaved` | Model/McarrayConv.lean |
| 205-211 | `tupleBytes` | Model/Mcarray.lean |
| 215-237 | `interleavedTypes` | Model/Mcarray.lean |
| 252-281 | `isInterleaved` | Model/Mcarray.lean |
| 265-279 | `interleavedLoop` | Model/Mcarray.lean |
| 319-437 | `mlarrayVerify` | Model/MeshVerify.lean |
| 378-398 | `mlarrayLevels` | Model/MeshVerify.lean |
| 380-397 | `levelSame` | Model/MeshVerify.lean |

## conduit_blueprint_mesh.cpp

| lines | Lean definition | file |
|---|---|---|
| 100-115 | `gridIjkToId` | Model/MeshConvert.lean |
| 118-134 | `gridIdToIjk` | Model/MeshConvert.lean |
| 197-216 | `fieldExists` | Model/MeshVerify.lean |
| 219-243 | `integerField` | Model/MeshVerify.lean |
| 219-243 | `leafField` | Model/MeshVerify.lean |
| 247-271 | `numberField` | Model/MeshVerify.lean |
| 275-299 | `stringField` | Model/MeshVerify.lean |
| 303-345 | `objectField` | Model/MeshVerify.lean |
| 318-340 | `objectTests` | Model/MeshVerify.lean |
| 349-374 | `mcarrayField` | Model/MeshVerify.lean |
| 378-406 | `mlarrayField` | Model/MeshVerify.lean |
| 410-435 | `o2mField` | Model/MeshVerify.lean |
| 439-478 | `enumField` | Model/MeshVerify.lean |
| 452-471 | `enumTest` | Model/MeshVerify.lean |
| 482-507 | `referenceField` | Model/MeshVerify.lean |
| 509-546 | `shapesNode` | Model/MeshVerify.lean |
| 517-521 | `shapeRange` | Model/MeshVerify.lean |
| 548-562 | `mixedElements` | Model/MeshVerify.lean |
| 564-585 | `mixedNode` | Model/MeshVerify.lean |
| 588-659 | `polyNode` | Model/MeshVerify.lean |
| 604-655 | `polySub` | Model/MeshVerify.lean |
| 631-651 | `subNode` | Model/MeshVerify.lean |
| 661-881 | `singleDomain` | Model/MeshVerify.lean |
| 671-688 | `collection` | Model/MeshVerify.lean |
| 885-925 | `multiDomain` | Model/MeshVerify.lean |
| 933-969 | `toRectilinear` | Model/MeshConvert.lean |
| 944-967 | `rectilinearAxis` | Model/MeshConvert.lean |
| 972-1053 | `toExplicit` | Model/MeshConvert.lean |
| 988-993 | `axisLen` | Model/MeshConvert.lean |
| 997-1052 | `explicitAxis` | Model/MeshConvert.lean |
| 1022-1051 | `fillAxis` | Model/MeshConvert.lean |
| 1034-1046 | `storeElem` | Model/MeshConvert.lean |
| 1034-1048 | `axisValue` | Model/MeshConvert.lean |
| 1119-1167 | `toStructured` | Model/MeshConvert.lean |
| 1170-1298 | `toUnstructured` | Model/MeshConvert.lean |
| 1206-1211 | `shapeName` | Model/MeshConvert.lean |
| 1213-1238 | `elemDims` | Model/MeshConvert.lean |
| 1214-1238 | `elemLen` | Model/MeshConvert.lean |
| 1246-1296 | `connectivity` | Model/MeshConvert.lean |
| 1257-1296 | `fillElement` | Model/MeshConvert.lean |
| 1266-1270 | `cornerOf` | Model/MeshConvert.lean |
| 1283-1294 | `exchange` | Model/MeshConvert.lean |
| 1936-1955 | `meshVerify` | Model/MeshVerify.lean |
| 1957-2039 | `domains` | Model/Partition.lean |
| 2111-2146 | `generateIndex` | Model/MeshIndex.lean |
| 2123-2136 | `indexDomains` | Model/MeshIndex.lean |
| 2149-2487 | `indexSingle` | Model/MeshIndex.lean |
| 2162-2183 | `indexState` | Model/MeshIndex.lean |
| 2187-2273 | `indexCoordset` | Model/MeshIndex.lean |
| 2198-2257 | `indexAxes` | Model/MeshIndex.lean |
| 2270-2272 | `indexPath` | Model/MeshIndex.lean |
| 2283-2299 | `indexTopology` | Model/MeshIndex.lean |
| 2308-2353 | `indexMatset` | Model/MeshIndex.lean |
| 2314-2349 | `indexMaterials` | Model/MeshIndex.lean |
| 2362-2386 | `indexSpecset` | Model/MeshIndex.lean |
| 2395-2445 | `indexField` | Model/MeshIndex.lean |
| 2399-2414 | `indexComponents` | Model/MeshIndex.lean |
| 2448-2466 | `indexAdjacency` | Model/MeshIndex.lean |
| 3703-3724 | `logicalDimsVerify` | Model/MeshVerify.lean |
| 3733-3745 | `associationVerify` | Model/MeshVerify.lean |
| 3733-3745 | `enumVerify` | Model/MeshVerify.lean |
| 3759-3778 | `axesVerify` | Model/MeshVerify.lean |
| 3808-3838 | `coordsetUniform` | Model/MeshVerify.lean |
| 3842-3876 | `coordsetRectilinear` | Model/MeshVerify.lean |
| 3880-3896 | `coordsetExplicit` | Model/MeshVerify.lean |
| 3900-3931 | `coordsetVerify` | Model/MeshVerify.lean |
| 3987-3999 | `coordsetToExplicit` | Model/MeshReorder.lean |
| 4055-4113 | `coordSystemVerify` | Model/MeshIndex.lean |
| 4082-4099 | `axisOk` | Model/MeshIndex.lean |
| 4122-4140 | `coordsetIndexVerify` | Model/MeshIndex.lean |
| 4146-4194 | `topologyVerify` | Model/MeshVerify.lean |
| 4247-4263 | `topologyImplicit` | Model/MeshVerify.lean |
| 4375-4411 | `topologyStructured` | Model/MeshVerify.lean |
| 4428-4515 | `topologyUnstructured` | Model/MeshVerify.lean |
| 4476-4499 | `groupsLoop` | Model/MeshVerify.lean |
| 4674-4705 | `polygonLines` | Model/TopoPoly.lean |
| 4674-4736 | `generateSides` | Model/TopoMeta.lean |
| 6058-6080 | `topologyIndexVerify` | Model/MeshIndex.lean |
| 6108-6120 | `shapeVerify` | Model/MeshVerify.lean |
| 6128-6159 | `shapeMapVerify` | Model/MeshVerify.lean |
| 6170-6200 | `materialMapVerify` | Model/MeshVerify.lean |
| 6204-6357 | `matsetVerify` | Model/MeshVerify.lean |
| 6217-6262 | `volumeFractions` | Model/MeshVerify.lean |
| 6264-6304 | `materialMapPart` | Model/MeshVerify.lean |
| 6306-6352 | `elementIds` | Model/MeshVerify.lean |
| 6394-6424 | `matsetIndexVerify` | Model/MeshIndex.lean |
| 6432-6508 | `fieldVerify` | Model/MeshVerify.lean |
| 6464-6500 | `fieldValues` | Model/MeshVerify.lean |
| 6560-6572 | `basisVerify` | Model/MeshVerify.lean |
| 6579-6625 | `fieldIndexVerify` | Model/MeshIndex.lean |
| 6633-6687 | `specsetVerify` | Model/MeshVerify.lean |
| 6655-6680 | `specLoop` | Model/MeshVerify.lean |
| 6692-6710 | `specsetIndexVerify` | Model/MeshIndex.lean |
| 6718-6817 | `adjsetVerify` | Model/MeshVerify.lean |
| 6738-6805 | `adjsetGroup` | Model/MeshVerify.lean |
| 6758-6794 | `adjsetWindow` | Model/MeshVerify.lean |
| 6819-6831 | `pairwiseLoop` | Model/Adjset.lean |
| 6834-6859 | `maxshareLoop` | Model/Adjset.lean |
| 6846-6855 | `maxshareVals` | Model/Adjset.lean |
| 6862-6941 | `toPairwise` | Model/Adjset.lean |
| 6872-6873, 6956-6957 | `sortedNames` | Model/Adjset.lean |
| 6872-6910 | `pairValues` | Model/Adjset.lean |
| 6878-6910 | `pairGroup` | Model/Adjset.lean |
| 6881-6904 | `readGroup` | Model/Adjset.lean |
| 6914-6919, 6996-7001 | `template` | Model/Adjset.lean |
| 6926-6937 | `makeGroup` | Model/Adjset.lean |
| 6944-7048 | `toMaxshare` | Model/Adjset.lean |
| 6959-6990 | `entitySets` | Model/Adjset.lean |
| 7003-7018 | `neighborSets` | Model/Adjset.lean |
| 7023-7043 | `setValues` | Model/Adjset.lean |
| 7033-7041 | `addValue` | Model/Adjset.lean |
| 7073-7090 | `adjacencyIndexVerify` | Model/MeshIndex.lean |
| 7097-7160 | `nestsetVerify` | Model/MeshVerify.lean |
| 7117-7150 | `nestsetWindow` | Model/MeshVerify.lean |
| 7206-7412 | `indexVerify` | Model/MeshIndex.lean |
| 7481-7495 | `plan` | Model/Partition.lean |
| 7590-7602 | `setId` | Model/MeshIO.lean |

## conduit_blueprint_mesh_kdtree.hpp

| lines | Lean definition | file |
|---|---|---|
| 129-133 | `Range` | Model/KdTree.lean |
| 136-145 | `BoxInfo` | Model/KdTree.lean |
| 210-224, 202-208 | `lookup` | Model/KdTree.lean |
| 288-302 | `cutBox` | Model/KdTree.lean |
| 299 | `midOf` | Model/KdTree.lean |
| 304-330 | `cutRange` | Model/KdTree.lean |
| 313-324 | `countBelow` | Model/KdTree.lean |
| 356-433 | `findPoint` | Model/KdTree.lean |
| 374-403 | `descend` | Model/KdTree.lean |
| 436-447 | `pointEqual` | Model/KdTree.lean |
| 450-474 | `calculateExtents` | Model/KdTree.lean |
| 455-461 | `extent` | Model/KdTree.lean |
| 469-472 | `expand` | Model/KdTree.lean |
| 476-504 | `construct` | Model/KdTree.lean |
| 506-545 | `constructBox` | Model/KdTree.lean |
| 547-560 | `longest` | Model/KdTree.lean |
| 562-578 | `sortIndexRange` | Model/KdTree.lean |
| 581-589 | `pointInBox` | Model/KdTree.lean |

## conduit_blueprint_mesh_matset_xforms.cpp

| lines | Lean definition | file |
|---|---|---|
| 97-123 | `multiMap` | Model/Silo.lean |
| 126-152 | `maxElem` | Model/Silo.lean |
| 126-179 | `multiCount` | Model/Silo.lean |
| 126-179 | `uniCount` | Model/Silo.lean |
| 181-264 | `uniMaps` | Model/Silo.lean |
| 198-263 | `oneLoop` | Model/Silo.lean |
| 202-212 | `elemAt` | Model/Silo.lean |
| 217-262 | `manyLoop` | Model/Silo.lean |
| 219-262 | `uniEntry` | Model/Silo.lean |
| 233-242 | `rdField` | Model/Silo.lean |
| 257-260 | `putField` | Model/Silo.lean |
| 265-336 | `multiVfs` | Model/Silo.lean |
| 265-415 | `multiMaps` | Model/Silo.lean |
| 302-336 | `multiMat` | Model/Silo.lean |
| 338-414 | `multiFvs` | Model/Silo.lean |
| 378-411 | `multiFieldMat` | Model/Silo.lean |
| 417-505 | `siloOut` | Model/Silo.lean |
| 445-504 | `zoneOut` | Model/Silo.lean |
| 532-544 | `revGet` | Model/Matset.lean |
| 549-567 | `numElems` | Model/Matset.lean |
| 571-601 | `walk` | Model/Matset.lean |
| 620-639 | `sbmRep` | Model/Matset.lean |
| 643-666 | `fillRow` | Model/Matset.lean |
| 643-666 | `repToFull` | Model/Matset.lean |
| 671-725 | `fullToSbe` | Model/Matset.lean |
| 730-795 | `fullToSbeField` | Model/Matset.lean |
| 754-769 | `pairUp` | Model/Matset.lean |
| 800-826 | `sbeToFull` | Model/Matset.lean |
| 831-868 | `sbeToFullField` | Model/Matset.lean |
| 873-912 | `sbeToSbm` | Model/Matset.lean |
| 917-963 | `sbeToSbmField` | Model/Matset.lean |
| 968-1000 | `fullToSbm` | Model/Matset.lean |
| 988-995 | `keepBig` | Model/Matset.lean |
| 1005-1053 | `fullToSbmField` | Model/Matset.lean |
| 1022-1047 | `keepFields` | Model/Matset.lean |
| 1038-1044 | `keepField` | Model/Matset.lean |
| 1058-1075 | `sbmToFull` | Model/Matset.lean |
| 1113-1197 | `sbmToSbe` | Model/Matset.lean |
| 1154-1172 | `spread` | Model/Matset.lean |
| 1202-1276 | `sbmToSbeField` | Model/Matset.lean |
| 1285-1305 | `toSilo` | Model/Silo.lean |
| 1309-1341 | `toFull` | Model/Matset.lean |
| 1345-1379 | `toSbe` | Model/Matset.lean |
| 1383-1417 | `toSbm` | Model/Matset.lean |
| 1471-1692 | `specToSilo` | Model/Specset.lean |
| 1476-1494 | `matPos` | Model/Specset.lean |
| 1534-1554 | `specMf` | Model/Specset.lean |
| 1563-1607 | `specIndex` | Model/Specset.lean |
| 1608-1662 | `specZones` | Model/Specset.lean |
| 1642-1660 | `mixLoop` | Model/Specset.lean |

## conduit_blueprint_mesh_partition.cpp

| lines | Lean definition | file |
|---|---|---|
| 91-115 | `getIndex` | Model/Partition.lean |
| 117-126 | `asIndices` | Model/Partition.lean |
| 180-189 | `getWhole` | Model/Partition.lean |
| 249-290 | `initBase` | Model/Partition.lean |
| 293-309 | `selected` | Model/Partition.lean |
| 341-412, 672-737, 940-987, 1246-1333 | `Kind` | Model/Partition.lean |
| 353-358, 700-704, 1048-1061, 1448-1476 | `selLength` | Model/Partition.lean |
| 401-404 | `cells` | Model/Partition.lean |
| 446-472, 767-788, 1017-1038, 1370-1404 | `initKind` | Model/Partition.lean |
| 479-517, 794-797, 1043-1046, 1442-1445 | `applicable` | Model/Partition.lean |
| 489-494, 1752-1755 | `looksLogical` | Model/Partition.lean |
| 520-538, 800-834, 1070-1107, 1479-1496 | `isWhole` | Model/Partition.lean |
| 546-600 | `splitLogical` | Model/Partition.lean |
| 546-600, 839-887, 1113-1191, 1503-1574 | `split` | Model/Partition.lean |
| 552-557 | `longest` | Model/Partition.lean |
| 562-595 | `part` | Model/Partition.lean |
| 601-636 | `boxVertexIds` | Model/Extract.lean |
| 640-664, 892-914, 1194-1218, 1606-1627 | `elementIds` | Model/Partition.lean |
| 650-659 | `boxIds` | Model/Partition.lean |
| 1048-1061 | `rangesLength` | Model/Partition.lean |
| 1113-1191 | `splitRanges` | Model/Partition.lean |
| 1119-1133 | `splitIndex` | Model/Partition.lean |
| 1143-1169 | `cutRange` | Model/Partition.lean |
| 1410-1438 | `fieldApplies` | Model/Partition.lean |
| 1459-1463, 1519-1522 | `fieldValues` | Model/Partition.lean |
| 1585-1602 | `destRank` | Model/Partition.lean |
| 1620-1625 | `positionsOf` | Model/Partition.lean |
| 1741-1801 | `allElements` | Model/Partition.lean |
| 1805-1851 | `optTarget` | Model/Partition.lean |
| 1855-2019 | `initPlan` | Model/Partition.lean |
| 1859-1861 | `domsOf` | Model/Partition.lean |
| 1870-1942 | `optionSels` | Model/Partition.lean |
| 1879-1881 | `initSel` | Model/Partition.lean |
| 1885-1928 | `place` | Model/Partition.lean |
| 2022-2038 | `domId` | Model/Partition.lean |
| 2043-2063 | `countTargets` | Model/Partition.lean |
| 2067-2081 | `largest` | Model/Partition.lean |
| 2092-2150 | `splitAll` | Model/Partition.lean |
| 2684-2757 | `copyFields` | Model/Extract.lean |
| 2698-2711, 2731-2744 | `copyAssoc` | Model/Extract.lean |
| 2713-2725, 2746-2758 | `mapField` | Model/Extract.lean |
| 2760-2792 | `copyField` | Model/Extract.lean |
| 2798-2991 | `vertexIds` | Model/Extract.lean |
| 2803-2807 | `baseOf` | Model/Extract.lean |
| 2807-2847 | `gridPoints` | Model/Extract.lean |
| 2819-2829 | `cornerSteps` | Model/Extract.lean |
| 2853-2883, 2977-2988 | `Cells` | Model/Extract.lean |
| 2861-2873, 3332-3344 | `polyOffsets` | Model/Extract.lean |
| 2887-2905, 3366-3374 | `polyhedraOf` | Model/Extract.lean |
| 2907-2923 | `polyhedronPoints` | Model/Extract.lean |
| 3005-3100 | `extract` | Model/Extract.lean |
| 3027-3036 | `newState` | Model/Extract.lean |
| 3104-3129 | `uniformCoords` | Model/Extract.lean |
| 3132-3151 | `rectilinearCoords` | Model/Extract.lean |
| 3154-3200 | `explicitCoords` | Model/Extract.lean |
| 3203-3243 | `boxTopo` | Model/Extract.lean |
| 3208-3220, 3229-3241 | `movedOrigin` | Model/Extract.lean |
| 3246-3270 | `boxStructured` | Model/Extract.lean |
| 3275-3305 | `createTopo` | Model/Extract.lean |
| 3307-3647 | `newTopo` | Model/Extract.lean |
| 3317-3319 | `newPoint` | Model/Extract.lean |
| 3376-3387 | `orientations` | Model/Extract.lean |
| 3389-3460 | `NewFaces` | Model/Extract.lean |
| 3392-3456 | `addPolyhedra` | Model/Extract.lean |
| 3392-3456 | `addPolyhedron` | Model/Extract.lean |
| 3398-3449 | `addFace` | Model/Extract.lean |
| 4267-4413 | `execute` | Model/Partition.lean |
| 4283-4339, 4481-4489 | `chunkOf` | Model/Partition.lean |
| 4375-4412 | `assemble` | Model/Partition.lean |
| 4459-4627 | `mapChunks` | Model/Partition.lean |
| 4483-4486 | `allLengths` | Model/Partition.lean |
| 4515-4517, 4540-4542, 4595-4597 | `nextId` | Model/Partition.lean |
| 4528-4550 | `numberAll` | Model/Partition.lean |
| 4573-4605 | `group` | Model/Partition.lean |
| 4681-4687 | `Sys` | Model/PointMerge.lean |
| 4774-4893 | `V3` | Model/PointMerge.lean |
| 4841-4855 | `within` | Model/PointMerge.lean |
| 4857-4875 | `V3.plus` | Model/PointMerge.lean |
| 4877-4887 | `dist2` | Model/PointMerge.lean |
| 4899-4932 | `BB` | Model/PointMerge.lean |
| 4908-4911 | `BB.has` | Model/PointMerge.lean |
| 4913-4916 | `BB.near` | Model/PointMerge.lean |
| 4918-4925 | `BB.expand` | Model/PointMerge.lean |
| 4967-4979 | `KTree` | Model/PointMerge.lean |
| 4996-5008 | `findPoint` | Model/PointMerge.lean |
| 5010-5022 | `insertPoint` | Model/PointMerge.lean |
| 5052-5070 | `BB.none` | Model/PointMerge.lean |
| 5080-5085 | `leafAdd` | Model/PointMerge.lean |
| 5090-5171 | `splitLeaf` | Model/PointMerge.lean |
| 5093-5106 | `longest` | Model/PointMerge.lean |
| 5108-5128 | `medianOf` | Model/PointMerge.lean |
| 5173-5241 | `KTree.find` | Model/PointMerge.lean |
| 5243-5282 | `KTree.insert` | Model/PointMerge.lean |
| 5537-5657 | `execute` | Model/PointMerge.lean |
| 5571-5611 | `prepare` | Model/PointMerge.lean |
| 5578-5596 | `sysOf` | Model/PointMerge.lean |
| 5616-5634 | `outSystem` | Model/PointMerge.lean |
| 5660-5701 | `anyOverlap` | Model/PointMerge.lean |
| 5662-5675 | `overlap` | Model/PointMerge.lean |
| 5704-5740 | `appendSets` | Model/PointMerge.lean |
| 5719-5740, 6069-6085 | `inSystem` | Model/PointMerge.lean |
| 5757-5826 | `createOutput` | Model/PointMerge.lean |
| 5830-5924 | `iterate` | Model/PointMerge.lean |
| 5851-5875 | `axisNames` | Model/PointMerge.lean |
| 5877-5924 | `pointsOf` | Model/PointMerge.lean |
| 5880-5920 | `coordAt` | Model/PointMerge.lean |
| 6031-6092 | `mergeSets` | Model/PointMerge.lean |
| 6045-6067 | `mergePoint` | Model/PointMerge.lean |
| 6095-6101 | `minF` | Model/PointMerge.lean |
| 6105-6110 | `minF` | Model/PointMerge.lean |
| 6114-6168 | `translate` | Model/PointMerge.lean |
| 6172-6193 | `Sys.axes` | Model/PointMerge.lean |
| 6226-6310 | `buildUnstructured` | Model/Combine.lean |
| 6239-6284 | `allBuckets` | Model/Combine.lean |
| 6259-6283 | `addBuckets` | Model/Combine.lean |
| 6260-6282 | `toBucket` | Model/Combine.lean |
| 6286-6310 | `bucketTopo` | Model/Combine.lean |
| 6312-6390 | `buildPolygonal` | Model/Combine.lean |
| 6327-6385 | `allPolys` | Model/Combine.lean |
| 6341-6383 | `polysOf` | Model/Combine.lean |
| 8657-8730 | `columns` | Model/Combine.lean |
| 8657-8730 | `numComps` | Model/MapBack.lean |
| 8734-8750 | `storageSize` | Model/MapBack.lean |
| 8753-8849 | `mapVertexField` | Model/Combine.lean |
| 8753-8849 | `storePoints` | Model/MapBack.lean |
| 8786-8800, 8973-8986 | `room` | Model/MapBack.lean |
| 8802-8847, 9003-9033 | `store` | Model/MapBack.lean |
| 8806-8847 | `pointWrites` | Model/Combine.lean |
| 8940-9034 | `mapElementField` | Model/Combine.lean |
| 8940-9034 | `storeElements` | Model/MapBack.lean |
| 9036-9085 | `combineField` | Model/Combine.lean |
| 9450-9547 | `recommended` | Model/Combine.lean |
| 9550-9593 | `groupCoordsets` | Model/Combine.lean |
| 9571-9589 | `addGroup` | Model/Combine.lean |
| 9595-9647 | `groupTopologies` | Model/Combine.lean |
| 9618-9643 | `addTopo` | Model/Combine.lean |
| 9650-10057 | `combine` | Model/Combine.lean |
| 9681-9687 | `combinedState` | Model/Combine.lean |
| 9826-9913 | `combineFields` | Model/Combine.lean |
| 9840-9867 | `groupFields` | Model/Combine.lean |
| 9869-9911 | `oneField` | Model/Combine.lean |
| 9934-9983 | `originElements` | Model/Combine.lean |
| 9957-9971, 10017-10021 | `domainId` | Model/Combine.lean |
| 9990-10045 | `originPoints` | Model/Combine.lean |
| 10060-10347 | `mapBack` | Model/MapBack.lean |
| 10096-10110 | `hasPointFields` | Model/MapBack.lean |
| 10123-10134 | `origins` | Model/MapBack.lean |
| 10131 | `tgtElems` | Model/MapBack.lean |
| 10132 | `selElems` | Model/MapBack.lean |
| 10164-10182 | `gidsOf` | Model/MapBack.lean |
| 10187-10201 | `newGids` | Model/MapBack.lean |
| 10210-10223 | `sharedPoints` | Model/MapBack.lean |
| 10253-10276 | `chunkFor` | Model/MapBack.lean |
| 10281-10345 | `backDomain` | Model/MapBack.lean |
| 10283-10311 | `elemTable` | Model/MapBack.lean |
| 10323-10343 | `backField` | Model/MapBack.lean |
| 10360-10500 | `combineUnstructured` | Model/Combine.lean |
| 10402-10450 | `working` | Model/Combine.lean |
| 10463-10499 | `kindOf` | Model/Combine.lean |

## conduit_blueprint_mesh_partition.hpp

| lines | Lean definition | file |
|---|---|---|
| 45-200 | `Sel` | Model/Partition.lean |
| 55 | `destDomain` | Model/Partition.lean |

## conduit_blueprint_mesh_topology_metadata.cpp

| lines | Lean definition | file |
|---|---|---|
| 163-170 | `Assoc` | Model/TopoMeta.lean |
| 887-1110 | `makeEmbedded` | Model/TopoMeta.lean |
| 944-973 | `sideLabels` | Model/TopoMeta.lean |
| 950-953, 1058-1064 | `sidePoints` | Model/TopoMeta.lean |
| 976-999, 1168-1195 | `relabel` | Model/TopoMeta.lean |
| 993-996, 1179-1182 | `fstLt` | Model/TopoMeta.lean |
| 1001-1006, 1103-1109 | `sideTopo` | Model/TopoMeta.lean |
| 1036-1076, 1220-1254 | `emitAll` | Model/TopoMeta.lean |
| 1044-1075, 1224-1254 | `Emit` | Model/TopoMeta.lean |
| 1118-1298 | `polygonsToLines` | Model/TopoPoly.lean |
| 1134-1168 | `allEdges` | Model/TopoPoly.lean |
| 1140-1147 | `polygonPoints` | Model/TopoPoly.lean |
| 1150-1167 | `polygonEdges` | Model/TopoPoly.lean |
| 1163-1165 | `edgeLabel` | Model/TopoPoly.lean |
| 1437 | `intType` | Model/TopoMeta.lean |
| 1543-1568 | `convertTopology` | Model/TopoMeta.lean |
| 1680-1690 | `convLeaf` | Model/TopoMeta.lean |
| 1695-1753 | `copyTopology` | Model/TopoMeta.lean |
| 1775-1801 | `makeUnique` | Model/TopoMeta.lean |
| 1785-1797 | `uniqueLoop` | Model/TopoMeta.lean |
| 1821 | `generateSides` | Model/TopoMeta.lean |
| 2418-2516 | `childToParent` | Model/TopoMeta.lean |
| 2455-2479 | `parentPairs` | Model/TopoMeta.lean |
| 2485-2488 | `sndLt` | Model/TopoMeta.lean |
| 2963-3025 | `dimMap` | Model/TopoMeta.lean |

## conduit_blueprint_mesh_utils.cpp

| lines | Lean definition | file |
|---|---|---|
| 92-101 | `shapeOfTopo` | Model/MeshReorder.lean |
| 134-150 | `shapeInit` | Model/MeshReorder.lean |
| 154-180 | `shapeAt` | Model/MeshReorder.lean |
| 191-202 | `ShapeType.isPolygonal` | Model/MeshReorder.lean |
| 312-350 | `findWidest` | Model/MeshTree.lean |
| 317-346 | `widestLoop` | Model/MeshTree.lean |
| 333-345 | `widestLeaf` | Model/MeshTree.lean |
| 336-340 | `sameClass` | Model/MeshTree.lean |
| 363-392 | `coordsetOf` | Model/Partition.lean |
| 399-422 | `findDomainId` | Model/Adjset.lean |
| 428-436 | `sliceList` | Model/MeshReorder.lean |
| 438-607 | `sliceArray` | Model/MeshReorder.lean |
| 610-630 | `sliceField` | Model/MeshReorder.lean |
| 1226-1293, 1361-1365 | `coordsys` | Model/MeshIndex.lean |
| 1226-1312, 1354-1357 | `axes` | Model/MeshConvert.lean |
| 1233-1251 | `axesChild` | Model/MeshConvert.lean |
| 1263-1270 | `axisName` | Model/MeshConvert.lean |
| 1273-1293 | `systemOf` | Model/MeshIndex.lean |
| 1273-1296 | `baseAxes` | Model/MeshConvert.lean |
| 1325-1350 | `coordsetLength` | Model/MeshConvert.lean |
| 1388-1418 | `coordDims` | Model/Partition.lean |
| 1420-1437 | `minMax` | Model/PointMerge.lean |
| 1440-1515 | `extents` | Model/PointMerge.lean |
| 1453-1471 | `uniformExtent` | Model/PointMerge.lean |
| 1603-1621 | `gridDims` | Model/Extract.lean |
| 1626-1714 | `logicalDims` | Model/Partition.lean |
| 1636-1643 | `axesLoop` | Model/Partition.lean |
| 1638-1643, 1404-1411 | `axisPoints` | Model/Partition.lean |
| 1649-1660 | `dimsLoop` | Model/Partition.lean |
| 1669-1723 | `topoLength` | Model/TopoMeta.lean |
| 1718-1723 | `length` | Model/Partition.lean |
| 1868-1883 | `cmp` | Model/Hilbert.lean |
| 1887-1932 | `sort2` | Model/Hilbert.lean |
| 1936-2001 | `sort3` | Model/Hilbert.lean |
| 2003-2064 | `ordering` | Model/Hilbert.lean |
| 2041-2056 | `curve` | Model/Hilbert.lean |
| 2058-2063 | `invert` | Model/Hilbert.lean |
| 2069-2073, 2168-2174 | `Builder.new` | Model/MeshBuilder.lean |
| 2083-2099 | `newPointId` | Model/MeshBuilder.lean |
| 2102-2122 | `addElement` | Model/MeshBuilder.lean |
| 2108-2112 | `addPoint` | Model/MeshBuilder.lean |
| 2125-2165 | `Builder.execute` | Model/MeshBuilder.lean |
| 2143-2155 | `selectAxis` | Model/MeshBuilder.lean |
| 2177-2215 | `iterateElements` | Model/MeshBuilder.lean |
| 2189-2197 | `takeIds` | Model/MeshBuilder.lean |
| 2191-2199, 2207-2213 | `iterateSizes` | Model/MeshBuilder.lean |
| 2259-2302 | `search` | Model/MeshBuilder.lean |
| 2284-2289 | `mapPoints` | Model/MeshBuilder.lean |
| 2306-2334 | `generateOffsetsInline` | Model/MeshPoints.lean |
| 2338-2344 | `generateOffsets1` | Model/MeshPoints.lean |
| 2348-2566 | `generateOffsets` | Model/MeshPoints.lean |
| 2499-2512, 2531-2540, 2550-2558 | `runningSums` | Model/MeshPoints.lean |
| 2570-2664 | `points` | Model/MeshPoints.lean |
| 2595-2602, 2610-2617 | `gather` | Model/MeshPoints.lean |
| 2752-2862 | `reorder` | Model/MeshReorder.lean |
| 2777-2795 | `Renum` | Model/MeshReorder.lean |
| 2799-2816 | `visitAll` | Model/MeshReorder.lean |
| 2801-2812 | `visitElement` | Model/MeshReorder.lean |
| 2803-2811 | `visitPoint` | Model/MeshReorder.lean |
| 2829-2832 | `reorderCoordsetInPlace` | Model/MeshReorder.lean |
| 2833-2842 | `fieldsOf` | Model/MeshReorder.lean |
| 2843-2858 | `reorderField` | Model/MeshReorder.lean |
| 2875-2912 | `canonicalGroups` | Model/Adjset.lean |
| 2879-2911 | `canonicalStep` | Model/Adjset.lean |
| 2883-2907 | `canonicalName` | Model/Adjset.lean |
| 2915-2943 | `isCanonical` | Model/Adjset.lean |
| 2921-2938 | `canonicalOk` | Model/Adjset.lean |
| 3505 | `search` | Model/MeshBuilder.lean |
| 3583 | `threshold` | Model/KdTree.lean |
| 3642-3798 | `query` | Model/KdTree.lean |
| 3663-3669 | `accelerated` | Model/KdTree.lean |
| 3706-3796 | `envOf` | Model/KdTree.lean |
| 3801-3896 | `normalSearch` | Model/KdTree.lean |
| 3827-3838, 3854-3864, 3880-3889 | `distance2` | Model/KdTree.lean |

## conduit_blueprint_mesh_utils.hpp

| lines | Lean definition | file |
|---|---|---|
| 58-61 | `widestFloat` | Model/MeshTree.lean |
| 58-61 | `widestInt` | Model/MeshTree.lean |
| 67-94 | `associations` | Model/MeshVerify.lean |
| 72-75 | `cartesianAxes` | Model/MeshConvert.lean |
| 78 | `coordSystems` | Model/MeshIndex.lean |
| 95-96 | `topoShapes` | Model/MeshReorder.lean |
| 106-107 | `topoShapeDims` | Model/MeshReorder.lean |
| 110-111 | `topoShapeIndices` | Model/MeshReorder.lean |
| 116-168 | `embedding` | Model/TopoMeta.lean |
| 160-165 | `topoShapeEmbeddings` | Model/MeshReorder.lean |

## conduit_blueprint_mesh_utils_iterate_elements.hpp

| lines | Lean definition | file |
|---|---|---|
| 62-68 | `Entity` | Model/Combine.lean |
| 263-290 | `traverseFixed` | Model/Combine.lean |
| 293-318 | `traversePolygons` | Model/Combine.lean |
| 300-318 | `runs` | Model/Combine.lean |
| 321-366 | `traversePolyhedra` | Model/Combine.lean |
| 349-361 | `faceOf` | Model/Combine.lean |
| 578-677 | `iterElements` | Model/Combine.lean |
| 596-611, 622-650 | `traverse` | Model/Combine.lean |
| 613-651 | `traverseAll` | Model/Combine.lean |

## conduit_blueprint_mpi_mesh.cpp

| lines | Lean definition | file |
|---|---|---|
| 2713-2741 | `firstDomain` | Model/MeshFiles.lean |

## conduit_blueprint_ndarray_index.cpp

| lines | Lean definition | file |
|---|---|---|
| 49-73 | `ofNode` | Model/NDIndex.lean |

## conduit_blueprint_ndarray_index.hpp

| lines | Lean definition | file |
|---|---|---|
| 165-178 | `NDIndex` | Model/NDIndex.lean |
| 186-203 | `NDIndex.index` | Model/NDIndex.lean |
| 215-223 | `NDIndex.offsetAt` | Model/NDIndex.lean |
| 226-241 | `NDIndex.strideAt` | Model/NDIndex.lean |
| 231-236 | `NDIndex.strideLoop` | Model/NDIndex.lean |

## conduit_blueprint_o2mrelation.cpp

| lines | Lean definition | file |
|---|---|---|
| 69-152 | `o2mVerify` | Model/MeshVerify.lean |
| 85-98 | `o2mMeta` | Model/MeshVerify.lean |
| 100-119 | `o2mPair` | Model/MeshVerify.lean |
| 123-138 | `o2mData` | Model/MeshVerify.lean |
| 154-171 | `Rel` | Model/O2M.lean |
| 175-244 | `compactTo` | Model/O2M.lean |
| 212-241 | `compactOne` | Model/O2M.lean |
| 222-238 | `compactMany` | Model/O2M.lean |
| 227-237 | `copyElems` | Model/O2M.lean |
| 247-279 | `generateOffsets` | Model/O2M.lean |
| 262-275 | `offsetsLoop` | Model/O2M.lean |

## conduit_blueprint_o2mrelation_index.cpp

| lines | Lean definition | file |
|---|---|---|
| 53-67 | `acc` | Model/O2M.lean |
| 128-151 | `indexIndex` | Model/O2M.lean |
| 154-183 | `indexSize` | Model/O2M.lean |
| 186-195 | `indexOffset` | Model/O2M.lean |

## conduit_blueprint_o2mrelation_iterator.cpp

| lines | Lean definition | file |
|---|---|---|
| 36-72 | `relOf` | Model/MeshPoints.lean |
| 148-167 | `hasNext` | Model/O2M.lean |
| 171-208 | `next` | Model/O2M.lean |
| 212-238 | `peekNext` | Model/O2M.lean |
| 242-258 | `toFront` | Model/O2M.lean |
| 265-284 | `hasPrevious` | Model/O2M.lean |
| 288-317 | `previous` | Model/O2M.lean |
| 350-367 | `toBack` | Model/O2M.lean |
| 416-447 | `index` | Model/O2M.lean |
| 423-427 | `groupOffset` | Model/O2M.lean |
| 429-433 | `groupStart` | Model/O2M.lean |
| 456-473 | `elementsData` | Model/O2M.lean |
| 474-487 | `elementsOne` | Model/O2M.lean |
| 488-507 | `elementsMany` | Model/O2M.lean |

## conduit_blueprint_o2mrelation_utils.hpp

| lines | Lean definition | file |
|---|---|---|
| 56 | `o2mPaths` | Model/MeshVerify.lean |

## conduit_blueprint_table.cpp

| lines | Lean definition | file |
|---|---|---|
| 31-96 | `verifyCols` | Model/Csv.lean |
| 99-130 | `verifyValues` | Model/Csv.lean |

## conduit_data_accessor.cpp

| lines | Lean definition | file |
|---|---|---|
| 159-206 | `accElement` | Model/Array.lean |
| 160-205 | `IntTy.cast` | Model/Utils.lean |
| 210-272 | `accSet` | Model/Array.lean |
| 275-370 | `accFill` | Model/Array.lean |
| 276-369 | `accFillLoop` | Model/Array.lean |
| 558-597 | `summaryLoop` | Model/Summary.lean |

## conduit_data_array.cpp

| lines | Lean definition | file |
|---|---|---|
| 117-267 | `arrayDiff` | Model/Diff.lean |
| 125-227 | `stringDiff` | Model/Diff.lean |
| 147-160 | `leafText` | Model/Diff.lean |
| 215 | `textDiff` | Model/Diff.lean |
| 242-253 | `elemsDiff` | Model/Diff.lean |
| 244 | `subInt` | Model/Diff.lean |
| 244-247, 420-423 | `far` | Model/Float.lean |
| 244-252 | `elemDiff` | Model/Diff.lean |
| 445-535 | `arrFold` | Model/Array.lean |
| 452-466 | `arrMin` | Model/Array.lean |
| 470-484 | `arrMax` | Model/Array.lean |
| 489-500 | `arrSum` | Model/Array.lean |
| 520-532 | `arrCount` | Model/Array.lean |
| 595-664 | `arrayText` | Model/GenNode.lean |
| 607-658 | `elemTexts` | Model/GenNode.lean |
| 611-656 | `elemText` | Model/GenNode.lean |
| 690-1180 | `Num.bytes` | Model/GenNode.lean |
| 2030-2045 | `loadChars` | Model/Diff.lean |
| 2061-2172 | `arraySummary` | Model/Summary.lean |
| 2098-2163 | `summaryLoop` | Model/Summary.lean |

## conduit_data_type.cpp

| lines | Lean definition | file |
|---|---|---|
| 63-80 | `dtype` | Model/Node.lean |
| 491-498 | `DataType` | Model/DataType.lean |
| 526-533 | `ofId` | Model/DataType.lean |
| 641-645 | `stridedBytes` | Model/DataType.lean |
| 650-653 | `bytesCompact` | Model/DataType.lean |
| 657-660 | `spannedBytes` | Model/DataType.lean |
| 664-669 | `bcastRecv` | Model/Bcast.lean |
| 664-669 | `compatible` | Model/DataType.lean |
| 664-669 | `reduceRecv` | Model/Reduce.lean |
| 673-681 | `equals` | Model/DataType.lean |
| 686-692 | `isCompact` | Model/DataType.lean |
| 1038-1051 | `elementIndex` | Model/DataType.lean |
| 1058-1076 | `nameToId` | Model/DataType.lean |
| 1081-1108 | `TypeId.name` | Model/DataType.lean |
| 1114-1163 | `cTypeNameToId` | Model/Generator.lean |
| 1219-1247 | `TypeId.bytes` | Model/DataType.lean |
| 1219-1247 | `ETy.bytes` | Model/MeshTree.lean |
| 1339-1388 | `DataType.toJsonText` | Model/GenNode.lean |
| 1339-1388 | `DataType.toJson` | Model/Generator.lean |
| 1464-1473 | `compactTo` | Model/DataType.lean |

## conduit_endianness.cpp

| lines | Lean definition | file |
|---|---|---|
| 31-39 | `machineDefault` | Model/NodeEndian.lean |
| 63-72 | `Endian.ofName` | Model/NodeEndian.lean |
| 75-84 | `Endian.name` | Model/NodeEndian.lean |
| 92-97 | `swap16` | Model/NodeEndian.lean |
| 108-118 | `swap32` | Model/NodeEndian.lean |
| 131-145 | `swap64` | Model/NodeEndian.lean |

## conduit_generator.cpp

| lines | Lean definition | file |
|---|---|---|
| 406-414 | `stringIsDouble` | Model/GenNode.lean |
| 455-472 | `leafName` | Model/Generator.lean |
| 479-508 | `numType` | Model/GenNode.lean |
| 511-545 | `homType` | Model/GenNode.lean |
| 527-542 | `homLoop` | Model/GenNode.lean |
| 548-557, 624-634, 696-719 | `getAll` | Model/GenNode.lean |
| 805-948 | `leafDtype` | Model/Generator.lean |
| 810-821 | `leafDtypeName` | Model/Generator.lean |
| 832-843 | `u64Member` | Model/Generator.lean |
| 845-873 | `lengthMember` | Model/Generator.lean |
| 888-917 | `endianMember` | Model/Generator.lean |
| 951-1045 | `inlineLeaf` | Model/GenNode.lean |
| 955-961 | `readLitConduitJson` | Model/JsonStr.lean |
| 1073-1120 | `inlineValue` | Model/GenNode.lean |
| 1124-1228 | `walkS` | Model/Generator.lean |
| 1139-1158 | `listOfLength` | Model/Generator.lean |
| 1150 | `getInt` | Model/Generator.lean |
| 1164-1170 | `lstLoop` | Model/Generator.lean |
| 1190-1199 | `objLoop` | Model/Generator.lean |
| 1232-1352 | `walkP` | Model/GenNode.lean |
| 1361-1558 | `walkN` | Model/GenNode.lean |
| 1376-1394 | `listOfLengthN` | Model/GenNode.lean |
| 1400-1417, 1514-1529 | `lstLoopN` | Model/GenNode.lean |
| 1404-1464 | `leafExplicit` | Model/GenNode.lean |
| 1422-1457 | `leafData` | Model/GenNode.lean |
| 1471-1508 | `objLoopN` | Model/GenNode.lean |
| 1530-1548 | `leafNamed` | Model/GenNode.lean |
| 1758-1806 | `parseBase64` | Model/Base64Json.lean |
| 1778-1797 | `setDecoded` | Model/Base64Json.lean |
| 1783-1795 | `decodeBuffer` | Model/Base64Json.lean |
| 3323-3342 | `parseSchema` | Model/Generator.lean |
| 3355-3404 | `genBase64` | Model/Base64Json.lean |
| 3355-3440 | `genNode` | Model/GenNode.lean |
| 3364-3377 | `genPure` | Model/GenNode.lean |

## conduit_log.cpp

| lines | Lean definition | file |
|---|---|---|
| 40-45 | `info` | Model/Log.lean |
| 40-45 | `note` | Model/MeshVerify.lean |
| 49-54 | `optional` | Model/Log.lean |
| 49-54 | `opt` | Model/MeshVerify.lean |
| 58-63 | `error` | Model/Log.lean |
| 58-63 | `err` | Model/MeshVerify.lean |
| 68-76 | `validation` | Model/Log.lean |
| 68-76 | `valid` | Model/MeshVerify.lean |
| 80-112 | `removeTree` | Model/Log.lean |
| 117-120 | `isValid` | Model/Log.lean |
| 130-133 | `isInvalid` | Model/Log.lean |
| 144-147 | `isOptional` | Model/Log.lean |
| 159-165 | `quote` | Model/MeshVerify.lean |

## conduit_node.cpp

| lines | Lean definition | file |
|---|---|---|
| 60-73 | `asString` | Model/MeshTree.lean |
| 103-106 | `newNode` | Model/NodeSync.lean |
| 122-127 | `reset` | Model/Node.lean |
| 122-127 | `resetN` | Model/NodeSync.lean |
| 291-325 | `loadBin` | Model/NodeIO.lean |
| 329-360 | `loadBinFiles` | Model/Generator.lean |
| 386-400 | `saveBinFiles` | Model/Generator.lean |
| 391-400 | `saveBin` | Model/NodeIO.lean |
| 468-516 | `setNode` | Model/Node.lean |
| 468-516 | `setSelf` | Model/Node.lean |
| 468-516 | `setNodeN` | Model/NodeSync.lean |
| 540-552 | `setSchema` | Model/Node.lean |
| 540-552 | `setSchemaN` | Model/NodeSync.lean |
| 563-574 | `setSchemaData` | Model/Node.lean |
| 563-574 | `setSchemaDataN` | Model/NodeSync.lean |
| 614-620 | `setScalar` | Model/Node.lean |
| 934-945 | `setArray` | Model/Node.lean |
| 1409-1440 | `setString` | Model/Node.lean |
| 1495-1500 | `setVector` | Model/Node.lean |
| 4544-4549 | `setExternalNode` | Model/Node.lean |
| 4544-4549 | `setExternalNodeN` | Model/NodeSync.lean |
| 4560-4567 | `setExternalSchema` | Model/Node.lean |
| 4560-4567 | `setExternalSchemaN` | Model/NodeSync.lean |
| 4604-4618 | `setExternalPtr` | Model/Node.lean |
| 4604-4618 | `setExternalPtrN` | Model/NodeSync.lean |
| 7386-7394 | `assign` | Model/Node.lean |
| 8421-8426 | `serializeVector` | Model/NodeIO.lean |
| 8445-8478 | `serializeStream` | Model/NodeIO.lean |
| 8458-8477 | `streamLeaf` | Model/NodeIO.lean |
| 8485-8502 | `compactTo` | Model/Node.lean |
| 8485-8502 | `compactToN` | Model/NodeSync.lean |
| 8509-8585 | `update` | Model/Node.lean |
| 8509-8585 | `updateN` | Model/NodeSync.lean |
| 8510-8585 | `BNode.update` | Model/MeshIndex.lean |
| 8557-8577 | `updateLeaf` | Model/Node.lean |
| 8557-8577 | `updateLeafN` | Model/NodeSync.lean |
| 8588-8648 | `updateCompatible` | Model/Node.lean |
| 8705-8711 | `moveN` | Model/NodeSync.lean |
| 8714-8776 | `swapN` | Model/NodeSync.lean |
| 8721-8750 | `relink` | Model/NodeSync.lean |
| 8787-8839 | `endianSwap` | Model/NodeEndian.lean |
| 8808-8817 | `resolve` | Model/NodeEndian.lean |
| 8821-8834 | `swapElem` | Model/NodeEndian.lean |
| 8845-10200 | `toInt64` | Model/MeshTree.lean |
| 8845-10200 | `IntTy.cast` | Model/Utils.lean |
| 8845-9560 | `nodeToInt` | Model/Array.lean |
| 12437-12459 | `get` | Model/MeshTree.lean |
| 12907-12990 | `childSummary` | Model/Summary.lean |
| 12947-12988 | `summaryLoop` | Model/Summary.lean |
| 13475-13620 | `toJsonG` | Model/GenNode.lean |
| 13508-13616 | `leafJson` | Model/GenNode.lean |
| 13543-13606 | `leafText` | Model/GenNode.lean |
| 13612-13616 | `jsonLit` | Model/JsonStr.lean |
| 13794-13853 | `toBase64Json` | Model/Base64Json.lean |
| 13811-13822 | `base64Source` | Model/Base64Json.lean |
| 13826-13850 | `base64Doc` | Model/Base64Json.lean |
| 13838-13847 | `base64Data` | Model/Base64Json.lean |
| 14249-14252 | `ofNode` | Model/Summary.lean |
| 14263-14279 | `addChild` | Model/Node.lean |
| 14263-14279 | `addChildN` | Model/NodeSync.lean |
| 14273-14276 | `attach` | Model/NodeSync.lean |
| 14415-14483 | `changeIn` | Model/MeshIO.lean |
| 14415-14483 | `fetchIn` | Model/MeshIO.lean |
| 14416-14483 | `putEntry` | Model/Log.lean |
| 14416-14483 | `sub` | Model/MeshVerify.lean |
| 14416-14483 | `fetchN` | Model/NodeSync.lean |
| 14494-14497 | `child` | Model/Summary.lean |
| 14508-14516 | `firstLen` | Model/Matset.lean |
| 14626-14641 | `Info.push` | Model/Log.lean |
| 14626-14643 | `initList` | Model/Node.lean |
| 14626-14643 | `appendN` | Model/NodeSync.lean |
| 14646-14658 | `removeN` | Model/NodeSync.lean |
| 14661-14676 | `removePathN` | Model/NodeSync.lean |
| 14679-14689 | `removeChildN` | Model/NodeSync.lean |
| 14692-14699 | `renameN` | Model/NodeSync.lean |
| 14705-14728 | `listOf` | Model/ListOf.lean |
| 14721-14727, 14759-14765 | `listEntries` | Model/ListOf.lean |
| 14745-14766 | `listOfExternal` | Model/ListOf.lean |
| 14745-14766 | `listOfExternalN` | Model/ListOf.lean |
| 14808-14815 | `asInt32` | Model/MeshVerify.lean |
| 15454-15461 | `asString` | Model/Node.lean |
| 17024-17033 | `setSchemaPtr` | Model/NodeSync.lean |
| 17248-17270 | `init` | Model/Node.lean |
| 17248-17270 | `initN` | Model/NodeSync.lean |
| 17281-17290 | `allocate` | Model/Node.lean |
| 17281-17290 | `allocN` | Model/NodeSync.lean |
| 17306-17340 | `releaseMem` | Model/Node.lean |
| 17306-17340 | `releasedInfo` | Model/Node.lean |
| 17306-17340 | `releaseN` | Model/NodeSync.lean |
| 17318-17331 | `freeOwn` | Model/Node.lean |
| 17343-17356 | `delN` | Model/NodeSync.lean |
| 17378-17395 | `new` | Model/Node.lean |
| 17404-17444 | `nodeProtocol` | Model/Utils.lean |
| 17455-17494 | `walk` | Model/Node.lean |
| 17455-17494 | `walkN` | Model/NodeSync.lean |
| 17497-17538 | `mirror` | Model/Node.lean |
| 17497-17538 | `mirrorN` | Model/NodeSync.lean |
| 17547-17567 | `compactWrite` | Model/Node.lean |
| 17571-17602 | `compactElements` | Model/Node.lean |
| 17606-17634 | `serializeMem` | Model/NodeIO.lean |
| 17616-17632 | `serializeLeaf` | Model/NodeIO.lean |
| 17672-17677 | `isContiguous` | Model/Contiguous.lean |
| 17680-17693 | `contiguousWith` | Model/Contiguous.lean |
| 17697-17708 | `contiguousAfter` | Model/Contiguous.lean |
| 17717-17777 | `contig` | Model/Contiguous.lean |
| 17781-17806 | `contiguousDataPtr` | Model/Contiguous.lean |
| 17805-17838 | `firstElem` | Model/Bcast.lean |
| 17810-17838 | `firstData` | Model/Contiguous.lean |
| 17834-18018 | `diff` | Model/Diff.lean |
| 17842-17876 | `leafDiff` | Model/Diff.lean |
| 17847-17857 | `relaxedDiff` | Model/Diff.lean |
| 17882-17901 | `diffThis` | Model/Diff.lean |
| 17903-17920 | `diffOther` | Model/Diff.lean |
| 17931-17936 | `diffZip` | Model/Diff.lean |

## conduit_node.hpp

| lines | Lean definition | file |
|---|---|---|
| 4167-4168 | `writeElem` | Model/Node.lean |
| 4167-4170 | `elementAddr` | Model/Contiguous.lean |

## conduit_node_iterator.cpp

| lines | Lean definition | file |
|---|---|---|
| 136-140 | `indexOf` | Model/Summary.lean |
| 143-147 | `node` | Model/Summary.lean |
| 157-161 | `toFront` | Model/Summary.lean |
| 165-170 | `hasNext` | Model/Summary.lean |
| 174-186 | `next` | Model/Summary.lean |
| 190-203 | `peekNext` | Model/Summary.lean |
| 207-211 | `toBack` | Model/Summary.lean |
| 218-222 | `hasPrevious` | Model/Summary.lean |
| 226-239 | `previous` | Model/Summary.lean |
| 242-255 | `peekPrevious` | Model/Summary.lean |
| 310-560 | `Iter` | Model/Summary.lean |
| 391-406 | `childTypes` | Model/McarrayConv.lean |
| 391-406 | `items` | Model/MeshVerify.lean |

## conduit_relay_io_blueprint.cpp

| lines | Lean definition | file |
|---|---|---|
| 78-123 | `domainMap` | Model/MeshFiles.lean |
| 93-98 | `perFile` | Model/MeshFiles.lean |
| 100-108 | `offsets` | Model/MeshFiles.lean |
| 103-107 | `offsetStep` | Model/MeshFiles.lean |
| 111-121 | `assign` | Model/MeshFiles.lean |
| 140-240 | `legacyPaths` | Model/MeshIO.lean |
| 164-199 | `expand` | Model/MeshIO.lean |
| 233-238, 342-347 | `endSlash` | Model/MeshIO.lean |
| 270-320 | `fullPath` | Model/MeshIO.lean |
| 281, 2096 | `countOf` | Model/MeshIO.lean |
| 284-289 | `domToTree` | Model/MeshIO.lean |
| 322-349 | `partitionPaths` | Model/MeshIO.lean |
| 459-463 | `quickCheck` | Model/MeshIO.lean |
| 651-714 | `cleanMesh` | Model/MeshIO.lean |
| 684-690 | `checkId` | Model/MeshIO.lean |
| 788-811 | `saveMesh` | Model/MeshIO.lean |
| 888-1790 | `writeMesh` | Model/MeshIO.lean |
| 896-949 | `readOpts` | Model/MeshIO.lean |
| 996-1024, 1113-1117 | `cycleSuffix` | Model/MeshIO.lean |
| 1081-1199 | `plan` | Model/MeshIO.lean |
| 1209-1312, 1443-1511 | `writeDoms` | Model/MeshIO.lean |
| 1320-1399 | `Rank` | Model/MeshFiles.lean |
| 1620-1705 | `Patterns` | Model/MeshIO.lean |
| 1742-1748 | `addPartition` | Model/MeshIO.lean |
| 1750-1760 | `rootNode` | Model/MeshIO.lean |
| 1806-1840 | `loadMesh` | Model/MeshIO.lean |
| 1862-1979 | `readRoot` | Model/MeshIO.lean |
| 1903-1908 | `rootNames` | Model/MeshIO.lean |
| 1982-2266 | `readMesh` | Model/MeshIO.lean |
| 2062-2140 | `locate` | Model/MeshIO.lean |
| 2198-2262 | `readOuter` | Model/MeshIO.lean |
| 2207-2229 | `readState` | Model/MeshIO.lean |
| 2234-2260 | `readEntry` | Model/MeshIO.lean |

## conduit_relay_io_csv.cpp

| lines | Lean definition | file |
|---|---|---|
| 56-70 | `nrows` | Model/Csv.lean |
| 73-99 | `header` | Model/Csv.lean |
| 79-94 | `colHeader` | Model/Csv.lean |
| 102-125 | `elemText` | Model/Csv.lean |
| 128-176 | `writeValues` | Model/Csv.lean |
| 148-175 | `rowsText` | Model/Csv.lean |
| 152-170 | `colText` | Model/Csv.lean |
| 220-244 | `addColumn` | Model/Csv.lean |
| 247-268 | `addColumns` | Model/Csv.lean |
| 253-258 | `addUnnamed` | Model/Csv.lean |
| 276-323 | `readColumnNames` | Model/Csv.lean |
| 281-294 | `cells` | Model/Csv.lean |
| 326-433 | `readData` | Model/Csv.lean |
| 340-430 | `readRow` | Model/Csv.lean |
| 346-384 | `readCell` | Model/Csv.lean |
| 436-499 | `readTable` | Model/Csv.lean |
| 610-633 | `writeCsv` | Model/Csv.lean |

## conduit_relay_io_handle.cpp

| lines | Lean definition | file |
|---|---|---|
| 184-200, 405-449 | `openFile` | Model/MeshIO.lean |
| 203-269 | `Mode.loads` | Model/MeshIO.lean |
| 480-492 | `readAt` | Model/MeshIO.lean |
| 505-512 | `writeAll` | Model/MeshIO.lean |
| 524-531 | `writeAt` | Model/MeshIO.lean |

## conduit_relay_io_identify_protocol.cpp

| lines | Lean definition | file |
|---|---|---|
| 55-119 | `relayProtocol` | Model/Utils.lean |

## conduit_relay_mpi.cpp

| lines | Lean definition | file |
|---|---|---|
| 80-145 | `hasMpiType` | Model/Reduce.lean |
| 412-419 | `probe` | Model/MpiTag.lean |
| 433-479 | `probeLoop` | Model/MpiTag.lean |
| 494-497 | `invalidTag` | Model/MpiTag.lean |
| 509-526 | `safeTag` | Model/MpiTag.lean |
| 530-583 | `sendUsingSchema` | Model/Relay.lean |
| 532-543 | `sentSchema` | Model/Relay.lean |
| 545 | `schemaText` | Model/Relay.lean |
| 547-554 | `msgSchema` | Model/Relay.lean |
| 586-632 | `recvUsingSchema` | Model/Relay.lean |
| 684-718 | `plainSend` | Model/PlainMsg.lean |
| 721-768, 772-819 | `plainRecv` | Model/PlainMsg.lean |
| 821-897 | `reduce` | Model/Reduce.lean |
| 829-853, 879-887 | `reduceSend` | Model/Reduce.lean |
| 860-877, 889-894 | `reduceRecv` | Model/Reduce.lean |
| 900-972 | `allReduce` | Model/Reduce.lean |
| 1098-1145 | `isend` | Model/Irecv.lean |
| 1148-1198 | `irecv` | Model/Irecv.lean |
| 1252-1271 | `wait` | Model/Irecv.lean |
| 1252-1271 | `waitSend` | Model/Irecv.lean |
| 1262-1268 | `finish` | Model/Irecv.lean |
| 1292-1327 | `waitAll` | Model/Irecv.lean |
| 1305 | `deliverAll` | Model/Irecv.lean |
| 1308-1322 | `finishAll` | Model/Irecv.lean |
| 1347-1404 | `gather` | Model/ListOf.lean |
| 1353-1374, 1388-1396 | `gatherData` | Model/ListOf.lean |
| 1379-1396, 1437-1455 | `gatherList` | Model/ListOf.lean |
| 1407-1456 | `allGather` | Model/ListOf.lean |
| 1460-1607 | `gatherUsingSchema` | Model/Gather.lean |
| 1465-1479, 1556-1564, 1594-1602 | `gatherSend` | Model/Gather.lean |
| 1507-1604 | `gatherRecv` | Model/Gather.lean |
| 1528-1550 | `displs` | Model/Gather.lean |
| 1575-1580 | `gatherSchema` | Model/Gather.lean |
| 1611-1741 | `allGatherUsingSchema` | Model/Gather.lean |
| 1745-1808 | `plainBroadcast` | Model/PlainMsg.lean |
| 1812-1940 | `broadcastUsingSchema` | Model/Bcast.lean |
| 1826-1851, 1871-1875, 1925-1929 | `bcastSend` | Model/Bcast.lean |
| 1881-1938 | `bcastRecv` | Model/Bcast.lean |
| 1916-1929 | `bcastNew` | Model/Bcast.lean |
| 1989-1992 | `commTag` | Model/CommSchema.lean |
| 2069-2285 | `communicate` | Model/CommSchema.lean |
| 2091-2155 | `commSends` | Model/CommSchema.lean |
| 2163-2217 | `commRecvs` | Model/CommSchema.lean |
| 2239-2272 | `commBuild` | Model/CommSchema.lean |

## conduit_relay_mpi.hpp

| lines | Lean definition | file |
|---|---|---|
| 44-49 | `Request` | Model/Irecv.lean |
| 350-357 | `CommOp` | Model/CommSchema.lean |

## conduit_schema.cpp

| lines | Lean definition | file |
|---|---|---|
| 90-91 | `delS` | Model/NodeSync.lean |
| 111-148 | `fillS` | Model/NodeSync.lean |
| 111-148 | `setS` | Model/NodeSync.lean |
| 160-170 | `ofDtype` | Model/NodeSync.lean |
| 160-170 | `setDtypeS` | Model/NodeSync.lean |
| 160-170 | `setDtype` | Model/SchemaRaw.lean |
| 174-178 | `gatherSchema` | Model/Gather.lean |
| 222-241 | `totalStridedBytes` | Model/Schema.lean |
| 244-263 | `totalBytesCompact` | Model/Schema.lean |
| 266-270 | `isCompact` | Model/Schema.lean |
| 273-299 | `spannedBytes` | Model/Schema.lean |
| 303-358 | `compatible` | Model/Schema.lean |
| 304-358 | `bcastRecv` | Model/Bcast.lean |
| 304-358 | `reduceRecv` | Model/Reduce.lean |
| 361-431 | `equals` | Model/Schema.lean |
| 442-447 | `compactTo` | Model/Schema.lean |
| 533-580 | `toJson` | Model/Generator.lean |
| 546-554 | `toJsonE` | Model/Generator.lean |
| 551-552 | `sepText` | Model/Generator.lean |
| 565-572 | `toJsonL` | Model/Generator.lean |
| 707-727 | `saveBinFiles` | Model/Generator.lean |
| 731-745 | `loadBinFiles` | Model/Generator.lean |
| 754-761 | `numberOfChildren` | Model/SchemaRaw.lean |
| 796-831 | `removeS` | Model/NodeSync.lean |
| 796-831 | `removeIdx` | Model/SchemaRaw.lean |
| 854-870 | `addChildS` | Model/NodeSync.lean |
| 854-870 | `addChild` | Model/SchemaRaw.lean |
| 864-868 | `pushChild` | Model/SchemaRaw.lean |
| 874-901 | `childByName` | Model/SchemaRaw.lean |
| 904-943 | `fetchExistingAt` | Model/SchemaRaw.lean |
| 947-981 | `fetchExistingConstAt` | Model/SchemaRaw.lean |
| 985-1007 | `childIndex` | Model/SchemaRaw.lean |
| 1010-1025 | `childName` | Model/SchemaRaw.lean |
| 1028-1074 | `renameS` | Model/NodeSync.lean |
| 1028-1074 | `renameChild` | Model/SchemaRaw.lean |
| 1078-1115 | `fetchAt` | Model/SchemaRaw.lean |
| 1149-1152 | `schemaPut` | Model/McarrayConv.lean |
| 1156-1210 | `listName` | Model/Csv.lean |
| 1156-1210 | `objName` | Model/Csv.lean |
| 1238-1255 | `hasChild` | Model/SchemaRaw.lean |
| 1259-1300 | `hasPathIn` | Model/MeshIO.lean |
| 1259-1300 | `hasPath` | Model/Schema.lean |
| 1270-1277 | `cullSlash` | Model/SchemaRaw.lean |
| 1305-1315 | `childNames` | Model/MeshVerify.lean |
| 1318-1343 | `removePath` | Model/SchemaRaw.lean |
| 1346-1369 | `removeChild` | Model/SchemaRaw.lean |
| 1372-1380 | `appendS` | Model/NodeSync.lean |
| 1372-1380 | `append` | Model/SchemaRaw.lean |
| 1401-1407 | `empty` | Model/SchemaRaw.lean |
| 1410-1419 | `initObjectS` | Model/NodeSync.lean |
| 1410-1419 | `initObject` | Model/SchemaRaw.lean |
| 1422-1431 | `initListS` | Model/NodeSync.lean |
| 1422-1431 | `initList` | Model/SchemaRaw.lean |
| 1434-1459 | `releaseS` | Model/NodeSync.lean |
| 1472-1507 | `compactAt` | Model/Schema.lean |
| 1586-1610 | `childAt` | Model/SchemaRaw.lean |
| 1642-1656 | `replaceChild` | Model/NodeSync.lean |

## conduit_schema.hpp

| lines | Lean definition | file |
|---|---|---|
| 303-307 | `saveBinFiles` | Model/Generator.lean |
| 303-307 | `schemaText` | Model/Relay.lean |

## conduit_utils.cpp

| lines | Lean definition | file |
|---|---|---|
| 171-234 | `AllocManager` | Model/Utils.lean |
| 185-192 | `register` | Model/Utils.lean |
| 189-190 | `put` | Model/Utils.lean |
| 194-200 | `allocFn` | Model/Utils.lean |
| 199, 206 | `get` | Model/Utils.lean |
| 202-207 | `freeFn` | Model/Utils.lean |
| 213-224 | `start` | Model/Utils.lean |
| 246-254 | `alloc` | Model/Mem.lean |
| 257-262 | `free` | Model/Mem.lean |
| 265-272 | `memcpy` | Model/Mem.lean |
| 283-314 | `stridedCopy` | Model/Mem.lean |
| 300-313 | `copyLoop` | Model/Mem.lean |
| 450-470 | `splitColon` | Model/MeshIO.lean |
| 450-470 | `splitString` | Model/Str.lean |
| 458 | `find` | Model/Str.lean |
| 473-500 | `splitVec` | Model/Str.lean |
| 480-498 | `splitVecLoop` | Model/Str.lean |
| 503-523 | `rsplitString` | Model/Str.lean |
| 511 | `rfind` | Model/Str.lean |
| 526-532 | `trimString` | Model/Str.lean |
| 535-544 | `splitPath` | Model/Str.lean |
| 547-556 | `rsplitPath` | Model/Str.lean |
| 559-572 | `joinPath` | Model/Str.lean |
| 608-648 | `splitFilePath` | Model/Str.lean |
| 619-622 | `isDrive` | Model/Str.lean |
| 653-707 | `rsplitFilePath` | Model/Str.lean |
| 711-722 | `joinFilePath` | Model/Str.lean |
| 915-924 | `checkWordChar` | Model/Str.lean |
| 927-933 | `checkNumChar` | Model/Str.lean |
| 937-1056 | `jsonSanitize` | Model/Str.lean |
| 958-962 | `San` | Model/Str.lean |
| 964-1053 | `sanLoop` | Model/Str.lean |
| 964-1053 | `sanStep` | Model/Str.lean |
| 1060-1072 | `indentText` | Model/Generator.lean |
| 1118-1176 | `escape` | Model/Str.lean |
| 1119-1176 | `escapeChar` | Model/Str.lean |
| 1179-1261 | `unescape` | Model/Str.lean |
| 1191-1252 | `unescapeCode` | Model/Str.lean |
| 1265-1287 | `encode` | Model/Base64.lean |
| 1286 | `encEnd` | Model/Base64.lean |
| 1290-1294 | `encodeBufferSize` | Model/Base64.lean |
| 1297-1301 | `decodeBufferSize` | Model/Base64.lean |
| 1305-1319 | `decode` | Model/Base64.lean |
| 1335-1355 | `bits64` | Model/GenNode.lean |
| 1576-1800 | `mapArgs` | Model/MeshIO.lean |
| 1938-1975 | `hashBytes` | Model/Hash.lean |
| 1947-1951, 1957-1963 | `mix` | Model/Hash.lean |
| 1965-1971 | `finish` | Model/Hash.lean |
| 2005-2010 | `hashIds` | Model/Hash.lean |
| 2023-2044 | `factor` | Model/Utils.lean |
| 2028-2036 | `factorOuter` | Model/Utils.lean |
| 2030-2035 | `factorInner` | Model/Utils.lean |

## conduit_utils.hpp

| lines | Lean definition | file |
|---|---|---|
| 359-360 | `blanks` | Model/Csv.lean |
| 534-547 | `valueFits` | Model/Utils.lean |
| 542-544 | `IntTy.cast` | Model/Utils.lean |

## reader.h

| lines | Lean definition | file |
|---|---|---|
| 251-258 | `isWs` | Model/Json.lean |
| 398-428 | `parseDoc` | Model/Json.lean |
| 524-561 | `parseMembers` | Model/Json.lean |
| 584-605 | `parseElems` | Model/Json.lean |
| 723-781 | `rjString` | Model/JsonStr.lean |
| 726-732 | `rjEscape` | Model/JsonStr.lean |
| 829-1041 | `parseNumber` | Model/Json.lean |
| 842-844 | `intDigits` | Model/Json.lean |
| 921-961 | `fracText` | Model/Json.lean |
| 966-1003 | `expText` | Model/Json.lean |
| 1044-1058 | `parseValue` | Model/Json.lean |
