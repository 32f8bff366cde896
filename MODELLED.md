# Modelled code

Generated from the comments of the definitions: every definition of the model
that cites a place in `/repo`, by module.

## Acl.Model

| definition | code |
|---|---|
| `Dos` | security/oc_pstat_internal.h:47-53 |
| `Method` | include/oc_ri.h |
| `Conn` | include/oc_acl.h:50-53 |
| `Subject` | include/oc_acl.h:70-75, 96-104 |
| `Wc` | include/oc_acl.h:59-64 |
| `Wc.bits` | include/oc_acl.h:59-64 |
| `Entry` | include/oc_acl.h:81-90 |
| `Ace` | include/oc_acl.h:110-119 |
| `RoleCred` | include/oc_cred.h |
| `Peer` | security/oc_tls_internal.h |
| `Config` | oc_acl_util.c:224-237 |
| `Res` | api/oc_core_res.c:576-670 |
| `Layout` | include/oc_ri.h |
| `Layout.base` | api/oc_ri_internal.h:56-57 |
| `coreIsSVR` | api/oc_core_res.c:576-595 |
| `coreIsVertical` | api/oc_core_res.c:609-634 |
| `coreIsDCR` | api/oc_core_res.c:636-670 |
| `matchUri` | api/oc_resource.c:86-97 |
| `matchWildcard` | security/oc_ace.c:288-295 |
| `entryMatches` | security/oc_ace.c:301-323 |
| `findResource` | security/oc_ace.c:297-340 |
| `subjectMatches` | security/oc_ace.c:243-263 |
| `findSubject` | security/oc_acl.c:73-87; security/oc_ace.c:265-286 |
| `wildcards` | security/oc_acl_util.c:123-133 |
| `resLoop` | security/oc_acl_util.c:135-145 |
| `acePermission` | security/oc_acl_util.c:112-146 |
| `subjectLoop` | security/oc_acl_util.c:155-173, 351-363, 369-381, 395-411 |
| `findPsk` | security/oc_cred.c:337-359 |
| `pskLoop` | security/oc_acl_util.c:298-313 |
| `ownerRole` | include/oc_roles.h |
| `permAll` | include/oc_enums.h:248 |
| `certLoop` | security/oc_acl_util.c:315-336 |
| `peerPermissions` | security/oc_acl_util.c:293-339 |
| `connPermissions` | security/oc_acl_util.c:341-384 |
| `evalAccess` | security/oc_acl_util.c:177-195 |
| `byPermissions` | security/oc_acl_util.c:386-429 |
| `onGet` | security/oc_acl_util.c:197-239 |
| `byUuid` | security/oc_acl_util.c:241-267 |
| `priorToDoc` | security/oc_acl_util.c:269-291 |
| `checkRest` | security/oc_acl_util.c:483-538 |
| `checkAcl` | security/oc_acl_util.c:431-538 |

## Acl.Store

| definition | code |
|---|---|
| `connToString` | security/oc_ace.c |
| `encodeSubject` | security/oc_ace.c:366-406 |
| `wcToString` | security/oc_ace.c:40-58 |
| `encodeEntry` | security/oc_ace.c:408-427 |
| `encodeAce` | security/oc_ace.c:445-469 |
| `encodeAcl` | security/oc_acl.c:112-143 |

## Acl.Update

| definition | code |
|---|---|
| `AclState` | security/oc_acl_internal.h |
| `uniqueAceid` | security/oc_acl.c:89-100 |
| `newAceid` | security/oc_acl.c:102-110 |
| `tagMatches` | security/oc_ace.c:234-241 |
| `selects` | security/oc_ace.c:271-285 |
| `getOrAddRes` | security/oc_ace.c:162-209 |
| `updateRes` | security/oc_acl.c:145-178 |
| `removeByAceid` | security/oc_acl.c:193-226 |
| `SubjDec` | security/oc_ace.c:471-477 |
| `decodeSubjectProps` | security/oc_ace.c:482-525 |
| `connOfString` | security/oc_ace.c:43-56 |
| `decodeSubject` | security/oc_ace.c:512-576 |
| `AceDec` | security/oc_ace_internal.h |
| `AceDec.init` | security/oc_acl.c:389-391 |
| `decodeProp` | security/oc_ace.c:578-656 |
| `decodeAce` | security/oc_ace.c:658-670 |
| `wcOfString` | security/oc_ace.c:58-71 |
| `decodeResource` | security/oc_ace.c:672-728 |
| `decodeResources` | security/oc_ace.c:730-744; security/oc_acl.c:295-343 |
| `decodeAceItem` | security/oc_acl.c:389-424 |
| `decodeAces` | security/oc_acl.c:387-425 |
| `guardAcl` | security/oc_acl.c:354-375 |
| `applyAcl` | security/oc_acl.c:377-432 |
| `decodeAcl` | security/oc_acl.c:345-433 |
| `deleteAcl` | security/oc_acl.c:503-540 |
| `clearAcl` | security/oc_acl.c:228-241 |
| `defaultAcl` | security/oc_acl.c:278-284 |

## Ael.Model

| definition | code |
|---|---|
| `Abi` | oc_ael.c:452, :461 |
| `Event` | oc_ael_internal.h:42-52 |
| `Ael` | oc_ael_internal.h:86-94 |
| `Ael.zero` | oc_ael.c:116-128 |
| `Ael.default` | oc_ael.c:142-151 |
| `Arg` | oc_ael.c:403-407 |
| `optSize` | oc_ael.c:454-459 |
| `calcSize` | oc_ael.c:448-467 |
| `keepAux` | oc_ael.c:492-501 |
| `create` | oc_ael.c:469-507 |
| `evict` | oc_ael.c:424-429 |
| `admits` | oc_ael.c:412 |
| `addEvent` | oc_ael.c:403-446 |
| `toU8` | oc_ael.c:296, :301, :341, :345 |
| `toWord` | oc_ael.c:306, :349 |
| `toI64` | oc_ael.c:231, :256 |
| `decodeInt` | oc_ael.c:289-318 |
| `decodeProp` | oc_ael.c:335-379 |
| `decodeArg` | oc_ael.c:328-379 |
| `decodeEvents` | oc_ael.c:326-382 |
| `decodeArrays` | oc_ael.c:319-388 |
| `decode` | oc_ael.c:284-390 |
| `encodeEvent` | oc_ael.c:245-277 |
| `encode` | oc_ael.c:212-282 |
| `maxSpace` | oc_ael.c:85-99 |
| `usedSpace` | oc_ael.c:100-114 |
| `dump` | security/oc_store.c:471-501 |

## Base64.Model

| definition | code |
|---|---|
| `Encoding` | include/oc_base64.h |
| `Res` | api/oc_base64.c:42-45, 217-220 |
| `encodedSize` | api/oc_base64.c:29-40 |
| `alphabet` | api/oc_base64.c:54-65 |
| `encLoop` | api/oc_base64.c:83-128 |
| `encode` | api/oc_base64.c:42-141 |
| `decodeChar` | api/oc_base64.c:151-179 |
| `decodedSize` | api/oc_base64.c:181-215 |
| `decLoop` | api/oc_base64.c:234-284 |
| `decode` | api/oc_base64.c:217-287 |
| `store` | api/oc_base64.c:268, 275, 282 |
| `ipLoop` | api/oc_base64.c:234-284, 292 |
| `decodeInPlace` | api/oc_base64.c:289-303 |

## Batch.Model

| definition | code |
|---|---|
| `Obs` | messaging/coap/observe_internal.h |
| `Res` | include/oc_ri.h; api/oc_ri.c:637-680 |
| `Tgt` | observe_internal.h |
| `Ent` | observe_internal.h |
| `Xf` | api/oc_blockwise_internal.h:60-80; observe.c:1299; api/oc_blockwise.c:98 |
| `St` | observe.c:125; observe.c:1246; api/oc_server_api.c:852, 875 |
| `Env` | observe.c:1493; api/oc_discovery.c:650-679, 702-732 |
| `Luck` | observe.c:1514 |
| `dup` | observe.c:1440-1460 |
| `mk` | observe.c:1521-1530 |
| `addLoop` | observe.c:1481-1533 |
| `addBatch` | observe.c:1470-1539 |
| `dropRes` | observe.c:149-152, 1462-1468 |
| `dropObs` | observe.c:143-147, 246 |
| `item` | observe.c:1250-1289 |
| `items` | observe.c:1313-1324 |
| `pick` | observe.c:1383-1400 |
| `send` | observe.c:1407-1413, 1291-1304, 591-661, 772-776 |
| `proc` | observe.c:1382-1420 |
| `process` | observe.c:1356-1430 |
| `cancel` | observe.c:223-249 |
| `register` | observe.c:313-354 |
| `inUse` | api/oc_ri.c:664-667 |
| `addRes` | api/oc_ri.c:637-680; api/oc_server_api.c:836-856 |
| `changeRes` | observe.c:1598-1607 |
| `deleteRes` | api/oc_ri.c:587-624; api/oc_server_api.c:858-879 |
| `xferEnd` | api/oc_blockwise.c:106-134 |
| `init` | observe.c:125 |

## Blockwise.Model

| definition | code |
|---|---|
| `Buf` | api/oc_blockwise_internal.h; engine.c:1218 |
| `alloc` | oc_blockwise.c:49-104 |
| `handleBlock` | oc_blockwise.c:433-454 |
| `dispatchBlock` | oc_blockwise.c:415-431 |
| `capacity` | engine.c:333-337 |
| `dropComplete` | engine.c:323-330 |
| `openBuf` | engine.c:332-352 |
| `recv1` | engine.c:311-385; engine.c:1193-1219 |
| `Op1` | oc_blockwise.c:177 |
| `recvPlain` | engine.c:283-309 |
| `respond` | engine.c:713-733; coap.c:1640-1649 |
| `recv2` | engine.c:387-492 |
| `recvC` | engine.c:991-1062 |
| `upload0` | api/oc_client_api.c:92-106 |
| `uploadNext` | engine.c:932-968 |

## Certs.Model

| definition | code |
|---|---|
| `San` | mbedtls/x509.h; security/oc_certs.c:496-499 |
| `Cfg` | security/oc_certs.c:57-64 |
| `idFlag` | mbedtls/x509_crt.h |
| `supportedMds` | include/oc_certs.h:36-38; mbedtls/md.h |
| `supportedCurves` | include/oc_certs.h:41-43; mbedtls/ecp.h |
| `setAllowed` | security/oc_certs.c:90-95, 129-135 |
| `flagValue` | security/oc_certs.c:103-107 |
| `mdAllowed` | security/oc_certs.c:109-114 |
| `curveAllowed` | security/oc_certs.c:143-148 |
| `expiredFlag` | mbedtls/x509.h |
| `futureFlag` | mbedtls/x509.h |
| `pkEcdsa` | mbedtls/pk.h |
| `timeFlags` | security/oc_certs_validate.c:56-66 |
| `v1Fields` | security/oc_certs_validate.c:38-82 |
| `selfIssued` | security/oc_certs_validate.c:96-98 |
| `kuDs` | mbedtls/x509.h |
| `kuKa` | mbedtls/x509.h |
| `kuCs` | mbedtls/x509.h |
| `kuCrl` | mbedtls/x509.h |
| `kuOk` | security/oc_certs_validate.c:116-123, 196-203 |
| `kuCa` | security/oc_certs_validate.c:110-115 |
| `caRest` | security/oc_certs_validate.c:108-146 |
| `nonEndEntity` | security/oc_certs_validate.c:84-147 |
| `oidServer` | mbedtls/oid.h |
| `oidClient` | mbedtls/oid.h |
| `oidAny` | mbedtls/oid.h |
| `oidIdentity` | security/oc_certs_validate.c:152-159 |
| `oidRole` | security/oc_certs_validate.c:169-176 |
| `hasEku` | security/oc_certs_validate.c:161-327 |
| `leafOk` | security/oc_certs_validate.c:191-229, 267-305 |
| `endEntity` | security/oc_certs_validate.c:182-255 |
| `roleCert` | security/oc_certs_validate.c:257-331 |
| `oidCn` | mbedtls/oid.h |
| `oidOu` | mbedtls/oid.h |
| `uuidPrefix` | security/oc_certs.c:47 |
| `findPrefix` | security/oc_certs.c:309-319 |
| `cnUuid` | security/oc_certs.c:321-358 |
| `firstOf` | security/oc_certs.c:365-372, 419-426 |
| `certUuid` | security/oc_certs.c:360-379 |
| `encodeCn` | security/oc_certs.c:298-307 |
| `scanDn` | security/oc_certs.c:508-522 |
| `roleOf` | security/oc_certs.c:524-547 |
| `firstRole` | security/oc_certs.c:488-550 |
| `Usage` | include/oc_cred.h |
| `Ca` | security/oc_tls.c:190-196 |
| `Own` | security/oc_tls.c:203-211 |
| `St` | security/oc_tls.c:1627-1646 |
| `wildcard` | security/oc_tls.c:1859-1861 |
| `noteRoot` | security/oc_tls.c:1814-1826 |
| `verifyCa` | security/oc_tls.c:1798-1827 |
| `authorise` | security/oc_tls.c:1872-1919 |
| `setUuid` | security/oc_tls.c:1848 |
| `peerUuid` | security/oc_tls.c:1837-1850 |
| `authorised` | security/oc_tls.c:1857-1920; security/oc_tls.c:1226-1241 |
| `verifyLeaf` | security/oc_tls.c:1828-1921 |
| `verifyPeer` | security/oc_tls.c:1792-1924 |
| `verifyCloud` | security/oc_tls.c:1927-1943 |
| `User` | security/oc_pki.c:407-461 |
| `defaultUser` | security/oc_pki.c:413-452 |
| `tlsVerify` | security/oc_tls.c:1748-1790 |
| `keyMatches` | security/oc_cred.c:439-446 |
| `uuidMatches` | security/oc_cred.c:400-416: 37 |
| `RoleEnv` | security/oc_tls.c:1528-1578 |
| `parseRole` | security/oc_certs.c:573-632 |
| `roleOwner` | security/oc_roles_internal.h |
| `assertable` | security/oc_cred.c:382-398 |
| `assertRole` | security/oc_cred.c:644-665, 776-780, 549-563 |
| `rolePerms` | security/oc_acl_util.c:316-336; api/oc_enums_internal.h:30 |
| `daysOffset` | security/oc_certs.c:648-650 |
| `timeDays` | security/oc_certs.c:652-665 |
| `unixTime` | security/oc_certs.c:644-673 |
| `isPem` | security/oc_certs.c:150-157 |
| `isIssuer` | security/oc_certs.c:675-682 |

## Client.Model

| definition | code |
|---|---|
| `Cb` | include/oc_client_state.h:117-142 |
| `Tr` | transactions_internal.h |
| `St` | oc_client_api.c:55-63 |
| `Pick.hit` | oc_client_cb.c:293-294, 317-318 |
| `dropTimers` | oc_client_cb.c:187-197 |
| `freeCb` | oc_client_cb.c:234-239 |
| `alloc` | oc_client_cb.c:66-98 |
| `newTrans` | transactions.c:88-119 |
| `clearTrans` | transactions.c:203-214 |
| `sentCb` | transactions.c:138-171; oc_client_api.c:158-166, 464-467, 549-552 |
| `doReq` | oc_client_api.c:451-468, 606-619, 680-695, 725-740, 783-798 |
| `initPost` | oc_client_api.c:507-534 |
| `doPost` | oc_client_api.c:137-182; oc_blockwise.c:264-274 |
| `ping` | oc_ping.c:44-76 |
| `stopObserve` | oc_client_api.c:622-642; oc_client_cb.c:162-185 |
| `stopMulticast` | oc_client_api.c:699-704 |
| `close` | oc_tls.c:2315-2330 |
| `setObserve` | oc_client_cb.c:397-421 |
| `dropPing` | oc_client_cb.c:271-273, 526-528 |
| `afterInvoke` | oc_client_cb.c:525-553 |
| `afterNotify` | oc_client_cb.c:270-276 |
| `stale` | oc_client_cb.c:449-455 |
| `respond` | oc_client_cb.c:434-523; engine.c:900-901 |
| `fire` | oc_client_cb.c:199-205, 279-285; oc_ping.c:30-42 |
| `clearMid` | engine.c:1136-1139 |

## Cloud.Model

| definition | code |
|---|---|
| `REGISTERED` | include/oc_cloud.h:45 |
| `LOGGED_IN` | include/oc_cloud.h:46 |
| `TOKEN_EXPIRY` | include/oc_cloud.h:47 |
| `REFRESHED` | include/oc_cloud.h:48 |
| `LOGGED_OUT` | include/oc_cloud.h:49 |
| `FAILURE` | include/oc_cloud.h:50 |
| `DEREGISTERED` | include/oc_cloud.h:51 |
| `Cps` | include/oc_cloud.h:54-61 |
| `Err` | include/oc_cloud.h:63-69 |
| `Tm` | api/cloud/oc_cloud_manager.c:59-96; api/cloud/oc_cloud.c:75; api/cloud/oc_cloud_deregister.c:49, 89 |
| `Req` | api/cloud/oc_cloud_manager.c:356, 584, 811, 905; api/cloud/oc_cloud_apis.c:213; api/cloud/oc_cloud_deregister.c:124 |
| `Ctx` | include/oc_cloud_context.h |
| `defaultTimeouts` | api/cloud/oc_cloud_schedule.c:35-40 |
| `setTimeouts` | api/cloud/oc_cloud_schedule.c:45-75 |
| `getTimeouts` | api/cloud/oc_cloud_schedule.c:77-91 |
| `isOver` | api/cloud/oc_cloud_schedule.c:93-98 |
| `withServers` | api/cloud/oc_cloud_context.c:63-71 |
| `defaultAction` | api/cloud/oc_cloud_schedule.c:100-119 |
| `setRetry` | api/cloud/oc_cloud_schedule.c:121-145 |
| `reset` | api/oc_server_api.c:260-266 |
| `cancel` | api/oc_server_api.c:285-289 |
| `counted` | api/cloud/oc_cloud_schedule.c:151-166 |
| `schedule` | api/cloud/oc_cloud_schedule.c:147-172 |
| `setErr` | api/cloud/oc_cloud.c:388-399 |
| `setCps` | api/cloud/oc_cloud.c:414-427 |
| `retryReset` | api/cloud/oc_cloud_context.c:44-49 |
| `permanent` | api/cloud/oc_cloud_context.c:266-276 |
| `isDereg` | api/cloud/oc_cloud.c:429-433 |
| `managerTms` | api/cloud/oc_cloud_manager.c:77-87 |
| `deregTms` | api/cloud/oc_cloud_deregister.c:347-359 |
| `resetEndpoint` | api/cloud/oc_cloud.c:162-168 |
| `reinitStore` | api/cloud/oc_cloud_store.c:354-387 |
| `regDeinit` | api/cloud/oc_cloud_context.c:338-344 |
| `regInit` | api/cloud/oc_cloud_context.c:321-336 |
| `contextClear` | api/cloud/oc_cloud_context.c:238-258 |
| `setEndpoint` | api/cloud/oc_cloud.c:108-129 |
| `send` | api/cloud/oc_cloud_apis.c:85-104; api/cloud/oc_cloud_access.c |
| `startAction` | api/cloud/oc_cloud_manager.c:122-139 |
| `startProcess` | api/cloud/oc_cloud_manager.c:112-149 |
| `Resp` | include/oc_ri.h:75-107 |
| `isConnErr` | api/cloud/oc_cloud.c:48-54 |
| `isTimeout` | api/cloud/oc_cloud.c:56-60 |
| `isConn` | api/cloud/oc_cloud_manager.c:151-156 |
| `strOf` | api/cloud/oc_cloud_manager.c:170-180 |
| `intOf` | api/oc_rep.c:255-265 |
| `setExpires` | api/cloud/oc_cloud_manager.c:215-218, 480-483 |
| `registerResponse` | api/cloud/oc_cloud_manager.c:182-220 |
| `redirectAdd` | api/cloud/oc_cloud_manager.c:244-263 |
| `redirectServers` | api/cloud/oc_cloud_manager.c:244-272 |
| `redirectResponse` | api/cloud/oc_cloud_manager.c:222-278 |
| `registerError` | api/cloud/oc_cloud_manager.c:158-168 |
| `registerHandler` | api/cloud/oc_cloud_manager.c:280-315 |
| `retryOther` | api/cloud/oc_cloud_manager.c:334-353 |
| `registerRetry` | api/cloud/oc_cloud_manager.c:383-404 |
| `mRegisterDone` | api/cloud/oc_cloud_manager.c:355-405 |
| `registerAsync` | api/cloud/oc_cloud_manager.c:407-442 |
| `loginError` | api/cloud/oc_cloud_manager.c:444-457 |
| `loginHandler` | api/cloud/oc_cloud_manager.c:459-498 |
| `keepalive` | api/cloud/oc_cloud_manager.c:521-539 |
| `refreshDelay` | api/cloud/oc_cloud_manager.c:563-581 |
| `scheduleRefresh` | api/cloud/oc_cloud_manager.c:603-608 |
| `loginUnauthorized` | api/cloud/oc_cloud_manager.c:625-640 |
| `mLoginDone` | api/cloud/oc_cloud_manager.c:583-644 |
| `loginAsync` | api/cloud/oc_cloud_manager.c:646-681 |
| `refreshError` | api/cloud/oc_cloud_manager.c:683-696 |
| `refreshResponse` | api/cloud/oc_cloud_manager.c:698-733 |
| `refreshFail` | api/cloud/oc_cloud_manager.c:765-780 |
| `refreshHandler` | api/cloud/oc_cloud_manager.c:735-781 |
| `mRefreshDone` | api/cloud/oc_cloud_manager.c:810-863 |
| `refreshAsync` | api/cloud/oc_cloud_manager.c:865-902 |
| `pingDone` | api/cloud/oc_cloud_manager.c:904-929 |
| `pingAsync` | api/cloud/oc_cloud_manager.c:931-947; api/cloud/oc_cloud_apis.c:345-361 |
| `notifyAsync` | api/cloud/oc_cloud_manager.c:59-68 |
| `restart` | api/cloud/oc_cloud.c:89-96 |
| `restartAsync` | api/cloud/oc_cloud.c:98-106 |
| `startAsync` | api/cloud/oc_cloud.c:74-87 |
| `managerRestart` | api/cloud/oc_cloud.c:435-453 |
| `reconnectAsync` | api/cloud/oc_cloud_manager.c:89-96 |
| `managerStart` | api/cloud/oc_cloud.c:461-489 |
| `managerStop` | api/cloud/oc_cloud.c:498-527 |
| `Conf` | api/cloud/oc_cloud_internal.h |
| `confServers` | api/cloud/oc_cloud.c:205-214 |
| `setConf` | api/cloud/oc_cloud.c:194-216 |
| `provision` | api/cloud/oc_cloud.c:254-291 |
| `session` | api/cloud/oc_cloud.c:330-364 |
| `netUp` | api/cloud/oc_cloud.c:369-376 |
| `doRegister` | api/cloud/oc_cloud_apis.c:106-143 |
| `doLogin` | api/cloud/oc_cloud_apis.c:154-189 |
| `doLogout` | api/cloud/oc_cloud_apis.c:236-265 |
| `doRefresh` | api/cloud/oc_cloud_apis.c:285-321 |
| `registerDone` | api/cloud/oc_cloud_manager.c:317-332 |
| `loginResult` | api/cloud/oc_cloud_manager.c:503-512 |
| `loginDone` | api/cloud/oc_cloud_manager.c:500-519 |
| `refreshResult` | api/cloud/oc_cloud_manager.c:787-799 |
| `refreshDone` | api/cloud/oc_cloud_manager.c:783-808 |
| `logoutDone` | api/cloud/oc_cloud_apis.c:212-234 |
| `deregRequest` | api/cloud/oc_cloud_deregister.c:177-200 |
| `doDeregister` | api/cloud/oc_cloud_deregister.c:267-330 |
| `deregDone` | api/cloud/oc_cloud_deregister.c:123-150 |
| `dLoginDone` | api/cloud/oc_cloud_manager.c:500-519; api/cloud/oc_cloud_deregister.c:202-222 |
| `dRefreshDone` | api/cloud/oc_cloud_manager.c:783-808; api/cloud/oc_cloud_deregister.c:249-265 |
| `refreshedAsync` | api/cloud/oc_cloud_deregister.c:224-247 |
| `cloudReset` | api/cloud/oc_cloud.c:170-192; api/cloud/oc_cloud_deregister.c:102-119 |
| `onResetAsync` | api/cloud/oc_cloud_deregister.c:88-100 |

## CloudRd.Model

| definition | code |
|---|---|
| `Link` | include/oc_collection.h |
| `Ctx` | api/cloud/oc_cloud_context_internal.h:80-100 |
| `encode` | api/cloud/rd_client.c:44-100 |
| `rdPublish` | api/cloud/rd_client.c:121-152 |
| `optLen` | messaging/coap/coap.c:493 |
| `headerSize` | messaging/coap/coap.c:1298-1328 |
| `optBase` | messaging/coap/coap.c:551-595 |
| `fill` | api/cloud/rd_client.c:260-280 |
| `rdDelete` | api/cloud/rd_client.c:242-288 |
| `takeRes` | api/cloud/oc_cloud_rd.c:40-48, 96-113 |
| `hasRes` | api/cloud/oc_cloud_rd.c:40-48 |
| `takeHref` | api/cloud/oc_cloud_rd.c:84-107 |
| `cloudPublish` | api/cloud/oc_cloud_rd.c:159-179 |
| `keep` | api/cloud/oc_cloud_rd.c:269-274, 284 |
| `cloudDelete` | api/cloud/oc_cloud_rd.c:251-286 |
| `addResource` | api/cloud/oc_cloud_rd.c:181-212 |
| `deleteResource` | api/cloud/oc_cloud_rd.c:331-367 |
| `acceptAll` | api/cloud/oc_cloud_rd.c:132-156 |
| `publishAnswer` | api/cloud/oc_cloud_rd.c:115-157 |
| `deleteAnswer` | api/cloud/oc_cloud_rd.c:234-249 |
| `moveBack` | api/cloud/oc_cloud_rd.c:214-221 |
| `republish` | api/cloud/oc_cloud_rd.c:223-230 |
| `statusPub` | api/cloud/oc_cloud_rd.c:299-301 |
| `statusDel` | api/cloud/oc_cloud_rd.c:302-304, 378-380 |
| `statusChanged` | api/cloud/oc_cloud_rd.c:288-310 |
| `deinit` | api/cloud/oc_cloud_rd.c:312-320 |
| `reset` | api/cloud/oc_cloud_rd.c:322-329 |
| `publishResources` | api/cloud/oc_cloud_rd.c:369-382 |
| `Op` | api/oc_collection.c |
| `step` | api/oc_ri.c:280-300 |
| `init` | api/cloud/oc_cloud_context.c |

## CloudStore.Model

| definition | code |
|---|---|
| `Store` | api/cloud/oc_cloud_store_internal.h |
| `encodeAddr` | util/oc_endpoint_address.c:502-530 |
| `encodeItems` | util/oc_endpoint_address.c:532-548 |
| `encodeServers` | util/oc_endpoint_address.c:550-574 |
| `encodeSelected` | api/cloud/oc_cloud_store.c:82-91 |
| `encode` | api/cloud/oc_cloud_store.c:77-107 |
| `strOf` | api/cloud/oc_cloud_endpoints.c:87-102 |
| `setLoop` | api/cloud/oc_cloud_endpoints.c:85-122 |
| `setServers` | api/cloud/oc_cloud_endpoints.c:50-125 |
| `Data` | api/cloud/oc_cloud_store.c:150-162 |
| `parseProp` | api/cloud/oc_cloud_store.c:164-241 |
| `parseProps` | api/cloud/oc_cloud_store.c:279-302 |
| `storeServers` | api/cloud/oc_cloud_store.c:243-266 |
| `decode` | api/cloud/oc_cloud_store.c:268-327 |
| `initStore` | api/cloud/oc_cloud_store.c:361-386; api/cloud/oc_cloud_resource_internal.h:40 |
| `load` | api/cloud/oc_cloud_store.c:341-352 |
| `keepStatus` | api/cloud/oc_cloud_context.c:102-104 |
| `start` | api/cloud/oc_cloud_context.c:100-104 |

## Coap.Model

| definition | code |
|---|---|
| `optionNibble` | messaging/coap/coap.c:166-176 |
| `extBytes` | messaging/coap/coap.c:188-202 |
| `extWritten` | messaging/coap/coap.c:188-202 |
| `setOptionHeader` | messaging/coap/coap.c:178-225 |
| `parseIntOption` | messaging/coap/coap.c:152-164 |
| `intOptionCount` | messaging/coap/coap.c:233-244 |
| `intOptionBytes` | messaging/coap/coap.c:252-275 |
| `optDelta` | messaging/coap/coap.c:250, 293 |
| `serIntOption` | messaging/coap/coap.c:227-277 |
| `splitLoop` | messaging/coap/coap.c:312-343 |
| `serArrayOption` | messaging/coap/coap.c:279-346 |
| `readExt` | messaging/coap/coap.c:1045-1054 |
| `readHeader` | messaging/coap/coap.c:1041-1065 |
| `Span` | messaging/coap/coap_internal.h:116-153 |
| `mergeMulti` | messaging/coap/coap.c:348-367 |
| `Block` | messaging/coap/coap_internal.h:142-149 |
| `log2Loop` | messaging/coap/options.c:443-454 |
| `blockEncode` | messaging/coap/options.c:456-465 |
| `blockDecode` | messaging/coap/options.c:467-475 |
| `setBlock1` | messaging/coap/options.c:380-398 |
| `setBlock2` | messaging/coap/options.c:423-441 |

## CoapMsg.Lemmas

| definition | code |
|---|---|
| `setOpt'` | messaging/coap/coap.c:1069-1073 |

## CoapMsg.Model

| definition | code |
|---|---|
| `Cfg` | messaging/coap/coap.c:406, 463, 690, 701, 952 |
| `Packet` | messaging/coap/coap_internal.h:95-182 |
| `noError` | messaging/coap/constants.h:131-176 |
| `badRequest` | messaging/coap/constants.h:141 |
| `badOption` | messaging/coap/constants.h:143 |
| `notAcceptable` | messaging/coap/constants.h:147 |
| `unsupportedMedia` | messaging/coap/constants.h:150 |
| `setOpt` | messaging/coap/coap_internal.h:79-80 |
| `zeroPacket` | messaging/coap/coap.c:1466, 1539 |
| `isSignal` | messaging/coap/signal.c:30-35 |
| `toI32` | messaging/coap/coap.c:993 |
| `toU32` | messaging/coap/coap.c:533 |
| `validContentFormat` | messaging/coap/coap.c:683-695; include/oc_ri.h:125-157 |
| `validAccept` | messaging/coap/coap.c:697-705 |
| `parseSignal` | messaging/coap/coap.c:613-680 |
| `Upd` | messaging/coap/coap.c:719, 723-724, 742, 773, 783, 793, 802, 889, 984, 993 |
| `Upd.apply` | messaging/coap/options.c:477-491 |
| `intUpd` | messaging/coap/coap.c:770, 780, 790, 799, 886, 981, 990 |
| `decodeScalar` | messaging/coap/coap.c:713-721 |
| `parseOption` | messaging/coap/coap.c:909-1006 |
| `optLoop` | messaging/coap/coap.c:1027-1096 |
| `parseOptions` | messaging/coap/coap.c:1008-1097 |
| `udpParse` | messaging/coap/coap.c:1456-1506 |
| `tcpExt` | messaging/coap/coap.c:1204-1207 |
| `tcpParseLength` | messaging/coap/coap.c:1184-1224 |
| `tcpPacketSize` | messaging/coap/coap.c:1510-1526 |
| `tcpParse` | messaging/coap/coap.c:1528-1580 |
| `CStr` | messaging/coap/coap_internal.h:116-181 |
| `Ser` | messaging/coap/coap.c:497-499 |
| `stepInt` | messaging/coap/coap.c:78-89 |
| `stepStr` | messaging/coap/coap.c:109-121 |
| `formatVersion` | messaging/coap/coap.c:455-489 |
| `stepAcceptVer` | messaging/coap/coap.c:588-595 |
| `stepFormatVer` | messaging/coap/coap.c:597-603 |
| `serSignal` | messaging/coap/coap.c:406-452 |
| `serOptions` | messaging/coap/coap.c:492-611 |
| `checkHeaderSize` | messaging/coap/coap.c:1282-1296 |
| `udpHeader` | messaging/coap/coap.c:1267-1280 |
| `tcpComputeLength` | messaging/coap/coap.c:1131-1182 |
| `tcpExtBytes` | messaging/coap/coap.c:1115-1118 |
| `tcpHeader` | messaging/coap/coap.c:1101-1129 |
| `subSize` | messaging/coap/coap.c:1396 |
| `serialize` | messaging/coap/coap.c:1330-1428 |

## Collection.Model

| definition | code |
|---|---|
| `Link` | include/oc_link.h |
| `lexLt` | api/oc_collection.c:207 |
| `stopsAt` | api/oc_collection.c:200-210 |
| `addLink` | api/oc_collection.c:178-219; util/oc_list.c:98-108 |
| `removeLink` | util/oc_list.c; api/oc_collection.c:221-237 |
| `strip` | api/oc_collection.c:284-287, 296-301 |
| `findLink` | api/oc_collection.c:276-308 |
| `Coll` | api/oc_collection_internal.h |
| `hasLink` | api/oc_collection.c:603-629 |
| `delFrom` | api/oc_ri.c:570-587 |
| `delRes` | api/oc_ri.c:570-587 |
| `freeColl` | api/oc_collection.c:118-141 |
| `Res` | include/oc_ri.h:317-360 |
| `Mem` | api/oc_collection.c:958-971 |
| `Elem` | api/oc_collection.c:954-988 |
| `c400` | messaging/coap/constants.h |
| `rtOk` | api/oc_core_res.c:810-837 |
| `getDel` | api/oc_collection.c:830, 933 |
| `taken` | api/oc_collection.c:837-849 |
| `ifaceFor` | api/oc_collection.c:797-800 |
| `Acc.note` | api/oc_collection.c:901-905 |
| `nested` | api/oc_collection.c:880-890 |
| `oneLink` | api/oc_collection.c:867-905 |
| `links` | api/oc_collection.c:811-920 |
| `fresh` | api/oc_collection.c:817-818 |
| `lastStr` | api/oc_collection.c:957-963 |
| `lastObj` | api/oc_collection.c:964-966 |
| `elems` | api/oc_collection.c:951-988 |
| `batch` | api/oc_collection.c:922-995 |
| `listedLinks` | api/oc_collection.c:671-726 |
| `baseline` | api/oc_collection.c:728-783 |
| `successCode` | api/oc_collection.c:997-1013 |
| `dispatch` | api/oc_collection.c:1022-1058 |
| `finalCode` | api/oc_collection.c:1070-1074 |
| `finish` | api/oc_collection.c:1060-1089 |
| `handle` | api/oc_collection.c:1015-1090 |

## ConRes.Model

| definition | code |
|---|---|
| `posTable` | api/oc_enums.c:27-31 |
| `enumTable` | api/oc_enums.c:35-109 |
| `locnTable` | api/oc_enums.c:113-134 |
| `toStr` | api/oc_enums.c:138-142, 144-155, 177-188, 211-222 |
| `fromStr` | api/oc_enums.c:163-175, 196-209, 230-242 |
| `posMax` | api/oc_enums.c:33 |
| `enumMax` | api/oc_enums.c:111 |
| `locnMax` | api/oc_enums.c:136 |
| `getLocn` | api/oc_con_resource.c:69-77 |
| `get` | api/oc_con_resource.c:46-82 |
| `scan` | api/oc_con_resource.c:91-113 |
| `setName` | api/oc_con_resource.c:121-133 |
| `setLocn` | api/oc_con_resource.c:135-148 |
| `post` | api/oc_con_resource.c:83-161 |
| `Op` | api/oc_con_resource.c:165-174; api/oc_resource.c:223-227 |

## Crc.Model

| definition | code |
|---|---|
| `poly` | util/oc_crc.c:29 |
| `shiftStep` | util/oc_crc.c:36-40 |
| `update` | util/oc_crc.c:31-43 |
| `crc64` | util/oc_crc.c:45-52 |

## Cred.Model

| definition | code |
|---|---|
| `psk` | include/oc_cred.h:42-44 |
| `certType` | include/oc_cred.h:44 |
| `identityCert` | include/oc_cred.h:55-61 |
| `roleCertUse` | include/oc_cred.h:58 |
| `encBase64` | include/oc_cred.h:70 |
| `encRaw` | include/oc_cred.h:71 |
| `encPem` | include/oc_cred.h:72 |
| `Data` | include/oc_cred.h:83-90; security/oc_cred_internal.h |
| `Cred` | include/oc_cred.h:95-118 |
| `getById` | security/oc_cred.c:96-119 |
| `eraseId` | security/oc_cred.c:177-181 |
| `eraseSubject` | security/oc_cred.c:320-335 |
| `clear` | security/oc_cred.c:252-263 |
| `eqData` | security/oc_cred_util.c:102-114 |
| `Orc` | oc_cred.c:651-658; oc_roles.c:150-163 |
| `Req` | security/oc_cred.c:638-645 |
| `setSubject` | security/oc_cred_util.c:163-181; oc_cred.c:668-672 |
| `isDuplicate` | security/oc_cred_util.c:123-147 |
| `newId` | security/oc_cred.c:167-175 |
| `keyLenOk` | security/oc_cred_util.c:183-198 |
| `setPrivate` | security/oc_cred_util.c:200-226 |
| `roleAllowed` | security/oc_cred.c:66-69, :382-398 |
| `newPrivate` | security/oc_cred.c:576-594 |
| `parseRole` | security/oc_cred.c:549-563 |
| `chooseId` | security/oc_cred.c:566-571 |
| `create` | security/oc_cred.c:539-619 |
| `matchPublic` | security/oc_cred.c:623-634 |
| `Scan` | security/oc_cred.c:711-741 |
| `scan` | security/oc_cred.c:711-741 |
| `Added` | security/oc_cred_internal.h:43-47 |
| `append` | security/oc_cred.c:759-816 |
| `addScan` | security/oc_cred.c:711-807 |
| `addDev` | security/oc_cred.c:685-807 |
| `Client` | security/oc_roles.c:124-130 |
| `clientOf` | security/oc_roles.c:137-148 |
| `rolesOf` | security/oc_roles.c:197-205 |
| `setRoles` | oc_roles.c:180, :228, :282 |
| `ensureClient` | security/oc_roles.c:184-195 |
| `freeRoles` | security/oc_roles.c:252-270 |
| `freeForDevice` | security/oc_roles.c:237-250 |
| `freeRoleById` | security/oc_roles.c:272-289 |
| `addRole` | security/oc_cred.c:685-816 |
| `Dev` | security/oc_cred.h; oc_cred.c:56-62 |
| `precheck` | security/oc_cred.c:647-683 |
| `add` | security/oc_cred.c:638-817 |
| `Item` | security/oc_cred.c:1170-1193 |
| `encodingOf` | security/oc_cred_util.c:74-93 |
| `usageOf` | security/oc_cred_util.c:262-286 |
| `decodeData` | security/oc_cred.c:1249-1283 |
| `decodeRole` | security/oc_cred.c:1286-1296 |
| `oscoreId` | security/oc_cred.c:1091-1103 |
| `decodeOscore` | security/oc_cred.c:1300-1342 |
| `decodeProp` | security/oc_cred.c:1197-1353 |
| `decodeItem` | security/oc_cred.c:1194-1355 |
| `oscoreOk` | security/oc_cred.c:1357-1374 |
| `Item.req` | security/oc_cred.c:1376-1395 |
| `finish` | security/oc_cred.c:1401-1437 |
| `decodeCreds` | security/oc_cred.c:1169-1440 |
| `guardOk` | security/oc_cred.c:1121-1151 |
| `decodeProps` | security/oc_cred.c:1153-1447 |
| `decode` | security/oc_cred.c:1114-1454 |
| `deriveOwner` | security/oc_cred.c:1484-1522 |
| `apply` | security/oc_cred.c:1456-1524; oc_roles.c:352-366 |
| `delete` | security/oc_cred.c:1553-1586 |
| `deleteRole` | security/oc_roles.c:368-400 |
| `init` | security/oc_cred.c:81-94 |

## Dedup.Model

| definition | code |
|---|---|
| `size` | engine.c:97 |
| `St` | engine.c:98-100 |
| `init` | engine.c:102-108 |
| `isDup` | engine.c:110-133 |
| `receive` | engine.c:259-278 |

## Delayed.Model

| definition | code |
|---|---|
| `Cb` | api/oc_event_callback_internal.h; util/oc_etimer.c:216-220 |
| `St` | oc_event_callback.c:37-48 |
| `addTimed` | oc_event_callback.c:176-194 |
| `removeLoop` | oc_event_callback.c:126-152 |
| `removedLog` | oc_event_callback.c:140-145 |
| `removeTimed` | oc_event_callback.c:118-160 |
| `obsAdd` | oc_event_callback.c:243-271 |
| `obsRemove` | oc_event_callback.c:273-287 |
| `act` | oc_ri.c:896-941; oc_ri.c:958-971; oc_ri.c:548-624 |
| `invoke` | oc_event_callback.c:206-208 |
| `finish` | oc_event_callback.c:208-223 |
| `pollLoop` | oc_event_callback.c:199-224 |
| `pollTimers` | oc_event_callback.c:196-229 |
| `poll` | oc_event_callback.c:310-317 |
| `expireList` | util/oc_etimer.c:86-96 |
| `init` | oc_event_callback.c:50-57 |

## Dhcp.Model

| definition | code |
|---|---|
| `hexVal` | plgd_dps_dhcp.c:84-97 |
| `hexLoop` | plgd_dps_dhcp.c:108-131 |
| `hexToValue` | plgd_dps_dhcp.c:99-132 |
| `put` | plgd_dps_dhcp.c:155-157 |
| `hexRounds` | plgd_dps_dhcp.c:145-161 |
| `hexStringToBytes` | plgd_dps_dhcp.c:134-162 |
| `Codes` | plgd_dps_dhcp_internal.h; plgd_dps_dhcp.c:41-50 |
| `Found` | plgd_dps_dhcp_internal.h |
| `setOption` | plgd_dps_dhcp.c:191-229 |
| `parseOption` | plgd_dps_dhcp.c:168-189 |
| `parseLoop` | plgd_dps_dhcp.c:240-250 |
| `parse` | plgd_dps_dhcp.c:231-251 |
| `Ctx` | plgd_dps_context_internal.h |
| `sameStr` | plgd_dps_apis.c:36-44 |
| `mdType` | plgd_dps_dhcp.c:279-306 |
| `setFingerprint` | plgd_dps.c:282-315 |
| `setEndpoint` | plgd_dps_endpoints.c:36-63 |
| `dhcpSetEndpoint` | plgd_dps_dhcp.c:253-277 |
| `Res` | include/plgd/plgd_dps.h:704-710 |
| `setValues` | plgd_dps_dhcp.c:308-355 |

## Discovery.Model

| definition | code |
|---|---|
| `Kind` | include/oc_ri.h:186-229 |
| `Tag` | api/oc_resource.c:262-293; api/oc_resource_internal.h |
| `Tag.val` | api/oc_resource.c:262-293 |
| `Res` | include/oc_ri.h:56-69 |
| `World` | api/oc_core_res.c:507-518 |
| `svrKinds` | api/oc_core_res.c:576-595 |
| `isSvr` | api/oc_core_res.c:576-595 |
| `originMatch` | oc_discovery.c:86-99 |
| `filterOut` | oc_discovery.c:101-136 |
| `ownedForSvrs` | oc_discovery.c:166-169 |
| `endpoints` | oc_discovery.c:157-180 |
| `written` | oc_discovery.c:221-224 |
| `platformKinds` | oc_discovery.c:271-276 |
| `deviceKinds` | oc_discovery.c:292-320 |
| `coreListed` | oc_discovery.c:266-329 |
| `dynListed` | oc_discovery.c:347-372 |
| `listed` | oc_discovery.c:331-376 |
| `uuidText` | api/oc_uuid.c:127-176 |
| `anchor` | oc_discovery.c:336-342 |
| `ifaceOrder` | api/oc_core_res.c:162-208 |
| `ifaceNames` | api/oc_core_res.c:162-208 |
| `strsVal` | api/oc_rep_decode.c:248-276 |
| `epObj` | oc_discovery.c:138-155 |
| `linkRep` | oc_discovery.c:226-262 |
| `link` | oc_discovery.c:216-264 |
| `send` | oc_discovery.c:378-400 |
| `View` | oc_discovery.c:1106-1156 |
| `encode` | oc_discovery.c:1106-1156 |
| `checkSduuid` | oc_discovery.c:1048-1071 |
| `answer` | oc_discovery.c:1158-1189 |
| `iterKinds` | api/oc_resource.c:110-123 |
| `iterate` | api/oc_resource.c:99-194 |
| `inBatch` | oc_discovery.c:646-680 |
| `batchEtag` | oc_discovery.c:887-897 |
| `hasEtag` | oc_discovery.c:927-941 |
| `candidate` | oc_discovery.c:950-968 |
| `incEtag` | oc_discovery.c:970-999 |
| `hrefOf` | oc_discovery.c:682-701; oc_server_api_internal.h:65 |
| `inAnswer` | oc_discovery.c:738-828 |
| `batch` | oc_discovery.c:1012-1043 |
| `serveBatch` | api/oc_ri.c:1655-1688 |
| `Op` | api/oc_etag.c:592-602 |
| `Payload` | api/oc_rep_decode.c:492-542 |
| `nodes` | api/oc_rep_decode.c:464-490 |
| `asObject` | oc_discovery.c:1372, 1399 |
| `CEp` | oc_discovery.c:1458-1471 |
| `Report` | oc_discovery.c:1499-1504 |
| `St` | oc_discovery.c:1348-1398 |
| `skipEp` | oc_discovery.c:1440-1448 |
| `mkEp` | oc_discovery.c:1459-1470 |
| `addEp` | oc_discovery.c:1451-1471 |
| `epProps` | oc_discovery.c:1432-1480 |
| `epArray` | oc_discovery.c:1427-1483 |
| `stringProp` | oc_discovery.c:1404-1411; api/oc_uuid.c:92-118 |
| `stringsProp` | oc_discovery.c:1413-1426 |
| `objProp` | oc_discovery.c:1484-1492 |
| `linkProps` | oc_discovery.c:1401-1497 |
| `fresh` | oc_discovery.c:1396-1398 |
| `report` | oc_discovery.c:1499 |
| `links` | oc_discovery.c:1394-1511 |
| `findLinks` | oc_discovery.c:1376-1392 |
| `searched` | oc_discovery.c:1372-1374 |
| `process` | oc_discovery.c:1335-1520 |

## Doxm.Model

| definition | code |
|---|---|
| `Doxm` | security/oc_doxm_internal.h |
| `Dec` | security/oc_doxm.c:444-456 |
| `Env` | security/oc_doxm.c:209-228 |
| `decodeBool` | security/oc_doxm.c:458-480 |
| `decodeInt` | security/oc_doxm.c:482-529 |
| `writable` | security/oc_doxm.c:531-549 |
| `decodeStr` | security/oc_doxm.c:551-592 |
| `isBaseline` | api/oc_rep.c:420-449 |
| `decodeProp` | security/oc_doxm.c:602-635 |
| `collect` | security/oc_doxm.c:637-649 |
| `setId` | security/oc_doxm.c:666-676 |
| `copy` | security/oc_doxm.c:651-677 |
| `decode` | security/oc_doxm.c:679-733 |
| `setDefault` | security/oc_doxm.c:250-261 |
| `encode` | security/oc_doxm.c:283-319 |

## Dps.CertModel

| definition | code |
|---|---|
| `State` | plgd_dps_pki_internal.h |
| `isExpiring` | plgd_dps_pki.c:120-125 |
| `validate` | plgd_dps_pki.c:127-150 |
| `chainLoop` | security/oc_cred.c:1063-1082; plgd_dps_security.c:308-332 |
| `checkOne` | security/oc_cred.c:1041-1090 |
| `round` | plgd_dps_security.c:353-387 |
| `check` | plgd_dps_security.c:340-400 |
| `interval` | plgd_dps_pki.c:248-285 |
| `schedule` | plgd_dps_security.c:402-412; plgd_dps_pki.c:226-246 |

## Dps.PinModel

| definition | code |
|---|---|
| `mbFlags` | library/x509_crt.c |
| `Cfg` | plgd_dps_context_internal.h |
| `digestOf` | plgd_dps_verify_certificate.c:104-135 |
| `verify` | plgd_dps_verify_certificate.c:137-219; security/oc_tls.c:1927-1943 |
| `tlsVerify` | security/oc_tls.c:1748-1790; security/oc_pki.c:413-452 |
| `check` | library/x509_crt.c |

## Dps.ProvModel

| definition | code |
|---|---|
| `Step` | client/plgd_dps_provision.c |
| `Fl` | client/include/plgd/dps.h; plgd_dps_internal.h |
| `Fl.has` | plgd_dps_internal.h |
| `Fl.setHas` | plgd_dps_time.c |
| `Fl.setGet` | plgd_dps_time.c |
| `Fl.noErr` | plgd_dps_internal.h; plgd_dps_time.c |
| `Fl.err` | plgd_dps_internal.h |
| `expected` | plgd_dps_time.c; plgd_dps_provision_owner.c; plgd_dps_provision_cloud.c; plgd_dps_provision.c |
| `Fl.forced` | plgd_dps_manager.c |
| `Fl.noCred` | plgd_dps_provision.c; plgd_dps_cloud.c |
| `Fl.all` | plgd_dps_internal.h |
| `Fl.next` | plgd_dps_provision.c |
| `Req` | plgd_dps_pki.c |
| `Tm` | plgd_dps_manager.c; plgd_dps.c |
| `St` | plgd_dps_context_internal.h |
| `Env` | plgd_dps_manager.c |
| `Ans` | plgd_dps_apis.c; plgd_dps_provision.c |
| `done` | plgd_dps_provision.c |
| `stopTimers` | plgd_dps_manager.c |
| `stopAll` | plgd_dps_manager.c |
| `found` | plgd_dps_manager.c |
| `initial` | plgd_dps_manager.c |
| `start` | plgd_dps_manager.c |
| `reprovision` | plgd_dps_manager.c |
| `observe` | plgd_dps_cloud.c |
| `applyForce` | plgd_dps_manager.c |
| `provisionGo` | plgd_dps_manager.c |
| `provision` | plgd_dps_manager.c |
| `ask` | plgd_dps_time.c; plgd_dps_provision_owner.c; plgd_dps_provision_cloud.c; plgd_dps_provision.c |
| `observerStart` | plgd_dps_cloud.c |
| `startCloud` | plgd_dps_provision.c |
| `finishSteps` | plgd_dps_provision.c |
| `nextStep` | plgd_dps_provision.c |
| `handleFailure` | plgd_dps_provision.c |
| `scheds` | plgd_dps_time.c |
| `handlerError` | plgd_dps_time.c; plgd_dps_provision_owner.c; plgd_dps_provision.c; plgd_dps_provision_cloud.c |
| `effect` | plgd_dps_provision_cloud.c; plgd_dps_provision.c; plgd_dps_apis.c; plgd_dps_time.c |
| `handlerGood` | plgd_dps_time.c; plgd_dps_provision_owner.c; plgd_dps_provision_cloud.c; plgd_dps_provision.c |
| `handlerGo` | plgd_dps_time.c; plgd_dps_provision_owner.c; plgd_dps_provision_cloud.c; plgd_dps_provision.c |
| `handler` | plgd_dps_time.c; plgd_dps_provision_owner.c; plgd_dps_provision_cloud.c; plgd_dps_provision.c |
| `renewAgain` | plgd_dps_pki.c |
| `renewHandler` | plgd_dps_pki.c |
| `renewFire` | plgd_dps_pki.c |
| `Obs` | plgd_dps_cloud.c |
| `observeFire` | plgd_dps_cloud.c |
| `uuidFire` | plgd_dps_cloud.c |
| `mgrFire` | plgd_dps_manager.c |
| `startFire` | plgd_dps_provision.c |
| `fire` | plgd_dps_manager.c |
| `restartLater` | plgd_dps.c |
| `disconnected` | plgd_dps.c |
| `Op` | plgd_dps_manager.c; plgd_dps_context.c; plgd_dps.c |
| `step` | plgd_dps.c; plgd_dps_context.c |

## Dps.RetryModel

| definition | code |
|---|---|
| `R` | plgd_dps_retry_internal.h:49-55 |
| `init` | plgd_dps_retry.c:47-59 |
| `setCfg` | plgd_dps_retry.c:61-83 |
| `size` | plgd_dps_retry.c:109-119 |
| `getCfg` | plgd_dps_retry.c:85-107 |
| `delayOf` | plgd_dps_retry.c:122-133 |
| `Sched` | include/plgd/plgd_dps.h:436-454 |
| `setRetry` | plgd_dps_retry.c:163-186 |
| `reset` | plgd_dps_retry.c:220-231 |
| `increment` | plgd_dps_retry.c:212-218 |
| `getTimeout` | plgd_dps_retry.c:233-242 |
| `getDelay` | plgd_dps_retry.c:244-253 |

## Encode.Model

| definition | code |
|---|---|
| `Fmt` | include/oc_rep.h; api/oc_rep_encode.c:228-233 |
| `Cf` | include/oc_ri.h |
| `Cfg` | api/oc_rep_encode_cbor.c; api/oc_rep_encode_json.c; port/oc_connectivity.h:45-114 |
| `Buf` | api/oc_blockwise.c:76-79; api/oc_storage.c:85 |
| `Enc` | api/oc_rep_encode.c:40-118 |
| `Method` | include/oc_ri.h |
| `Req` | api/oc_client_api.c:433-534 |
| `Rq` | api/oc_ri.c:1714-1717 |
| `Cb` | api/client/oc_client_cb_internal.h; api/oc_client_api.c:260 |
| `Cur` | api/oc_ri.c:1751-1762 |
| `St` | api/oc_client_api.c:55-63 |
| `init` | api/oc_client_api.c:60-77; api/oc_rep_encode.c:40-60 |
| `alloc` | api/oc_blockwise.c:76; api/oc_storage.c:85; api/oc_message.c |
| `free` | api/oc_blockwise.c:124-126; api/oc_storage.c:96-104 |
| `newFixed` | api/oc_rep.c:53-58 |
| `newGrow` | api/oc_rep.c:69-75 |
| `grown` | api/oc_rep_encode.c:130-159 |
| `encode` | api/oc_rep_encode.c:440-770 |
| `size` | api/oc_rep_encode.c:363-401 |
| `sizeTrunc` | api/oc_rep_encode.c:363-395 |
| `cfOf` | api/oc_rep_encode.c:219-237 |
| `setAccept` | api/oc_rep_encode.c:202-217 |
| `begin_` | api/oc_ri.c:1308-1393 |
| `label` | api/oc_server_api.c:180-186 |
| `send` | api/oc_server_api.c:164-203; api/oc_ri.c:1204-1205 |
| `shrink` | api/oc_rep_encode.c:278-320 |
| `finish` | api/oc_ri.c:1411-1423, 1200-1215; api/oc_blockwise.c:415-431 |
| `Method.body` | api/oc_client_api.c:82-84, 239 |
| `prepare` | api/oc_client_api.c:219-290 |
| `freeCb` | api/client/oc_client_cb.c:206-239; api/oc_blockwise.c:264-284 |
| `payload` | api/oc_client_api.c:79-133 |
| `cleanup` | api/oc_client_api.c:171-181; engine.c |
| `dispatch` | api/oc_client_api.c:137-182; messaging/coap/coap.c:1245-1454 |
| `dispatchTimed` | api/oc_client_api.c:537-556 |
| `dump` | api/oc_storage.c:182-240; security/oc_store.c:400-440 |
| `updInit` | api/oc_client_api.c:355-391 |
| `updDo` | api/oc_client_api.c:315-353 |
| `closeCbs` | api/client/oc_client_cb.c:310-326 |
| `close` | security/oc_tls.c:530-545 |

## Endpoint.Model

| definition | code |
|---|---|
| `Flags` | include/oc_endpoint.h:75-84 |
| `Ep` | include/oc_endpoint.h:90-113; include/oc_endpoint.h:44-59 |
| `scheme` | api/oc_endpoint.c:92-107; api/oc_endpoint_internal.h:39-42 |
| `snprintf` | port/common/oc_ip.c:75, 91, 113 |
| `flagsToScheme` | api/oc_endpoint.c:109-122 |
| `quad` | port/common/oc_ip.c:91-92 |
| `v4String` | port/common/oc_ip.c:84-97 |
| `v4PortString` | port/common/oc_ip.c:99-118 |
| `v6String` | port/common/oc_ip.c:41-54 |
| `v6PortString` | port/common/oc_ip.c:56-80 |
| `addrPortString` | api/oc_endpoint.c:139-154 |
| `toCString` | api/oc_endpoint.c:156-176 |
| `toString64` | api/oc_endpoint.c:193-208 |
| `isDigit` | api/oc_endpoint.c:467 |
| `v4Loop` | api/oc_endpoint.c:232-238; api/oc_endpoint.c:600 |
| `parseV4` | api/oc_endpoint.c:225-239 |
| `hexDig` | api/oc_endpoint.c:248-304 |
| `hexToBin` | api/oc_endpoint.c:242-311 |
| `segBytes` | api/oc_endpoint.c:333-361 |
| `v6Split` | api/oc_endpoint.c:323-326 |
| `v6Loop` | api/oc_endpoint.c:322-362 |
| `v6Shift` | api/oc_endpoint.c:364-374 |
| `parseV6` | api/oc_endpoint.c:313-378 |
| `hasScheme` | api/oc_endpoint.c:397-399 |
| `parseFlags` | api/oc_endpoint.c:391-417 |
| `portLoop` | api/oc_endpoint.c:466-471 |
| `findPort` | api/oc_endpoint.c:445-457 |
| `Uri` | api/oc_endpoint.c:380-389 |
| `portLen` | api/oc_endpoint.c:465 |
| `parseUri` | api/oc_endpoint.c:419-498 |
| `isAlpha` | api/oc_endpoint.c:534-535 |
| `lastHost` | api/oc_endpoint.c:534-535 |
| `resolve` | api/oc_endpoint.c:530-557 |
| `readHost` | api/oc_endpoint.c:559-590 |
| `parse` | api/oc_endpoint.c:518-602 |
| `findSep` | api/oc_endpoint.c:614 |
| `parsePath` | api/oc_endpoint.c:604-643 |
| `Flags.plain` | api/oc_endpoint.c:702-703 |
| `sameSession` | api/oc_endpoint.c:684-692 |
| `compareAddress` | api/oc_endpoint.c:658-681 |
| `compare` | api/oc_endpoint.c:695-734 |
| `isLinkLocal` | api/oc_endpoint.c:645-656 |

## Engine.Model

| definition | code |
|---|---|
| `Ep` | include/oc_endpoint.h:90-113 |
| `Pkt` | messaging/coap/coap_internal.h; constants.h:114-120 |
| `udpPkt` | coap.c:1245-1253 |
| `tcpPkt` | coap.c:1256-1264 |
| `Msg` | engine.c:270-274 |
| `parsed` | coap.c:1552-1553 |
| `Buf` | engine.c:407-466 |
| `Cli` | engine.c:884-1057 |
| `Env` | engine.c:1124-1130; engine.c:648-655; engine.c:539-550; signal.c:107-112 |
| `Csm` | port/oc_connectivity.h:267-272 |
| `Tx` | transactions_internal.h:74-85 |
| `St` | engine.c:98-100; coap.c:145; tcpsession.c; engine.c:1122 |
| `wire` | coap.c:1238-1242 |
| `csm` | tcpsession.c:1073-1090 |
| `setCsm` | tcpsession.c:1092-1109 |
| `sendCsm` | signal.c:114-144; signal.c:37-52 |
| `post` | coap.c:1429-1446 |
| `sendEmpty` | engine.c:135-163 |
| `clear` | transactions.c:203-214 |
| `newTx` | transactions.c:88-119 |
| `typeBits` | transactions.c:127-129; engine.c:1203 |
| `sendTx` | transactions.c:121-170 |
| `withToken` | engine.c:611-645 |
| `sendResponse` | engine.c:596-656 |
| `initResponse` | engine.c:246-279 |
| `W` | engine_internal.h |
| `Ret` | engine_internal.h:74-81 |
| `separate` | engine.c:371-378 |
| `block1` | engine.c:311-385 |
| `block2` | engine.c:387-493 |
| `plain` | engine.c:522-591 |
| `payload` | engine.c:512-592 |
| `handler` | engine.c:658-742 |
| `handled` | engine.c:817-828 |
| `serve` | engine.c:811-828 |
| `withMethod` | engine.c:774-828 |
| `withCode` | engine.c:872-1058 |
| `isRequest` | constants.h:123-128 |
| `receive` | engine.c:1060-1074 |
| `final` | engine.c:1191-1209 |
| `result` | engine.c:1188-1220 |
| `settle` | transactions.c:215-227; engine.c:1132-1141 |
| `closeSession` | api/oc_client_api.c:961-980 |
| `isSignal` | signal.c:30-35 |
| `sendPong` | signal.c:88-105 |
| `signal` | signal.c:194-236 |
| `invalid` | engine.c:1093-1110 |
| `stale` | engine.c:1160-1164 |
| `main` | engine.c:1112-1221 |
| `inbound` | engine.c:1112-1221 |
| `Ev` | tcpsession.c:313-314; tcpsession.c:574-578; transactions.c:171-200 |
| `app` | api/oc_client_api.c; observe.c |
| `start` | coap.c:1231-1236 |

## EpAddr.Model

| definition | code |
|---|---|
| `Meta` | util/oc_endpoint_address_internal.h:41-60 |
| `Item` | util/oc_endpoint_address_internal.h |
| `Addrs` | util/oc_endpoint_address_internal.h:109-116 |
| `valid` | util/oc_endpoint_address.c:129-133 |
| `select'` | util/oc_endpoint_address.c:135-147 |
| `allocAdd` | util/oc_endpoint_address.c:167-201 |
| `init` | util/oc_endpoint_address.c:203-227 |
| `deinit` | util/oc_endpoint_address.c:238-250 |
| `reinit` | util/oc_endpoint_address.c:252-260 |
| `contains` | util/oc_endpoint_address.c:289-305 |
| `add` | util/oc_endpoint_address.c:307-322 |
| `orHead` | util/oc_endpoint_address.c:324-332 |
| `remove` | util/oc_endpoint_address.c:334-349 |
| `find` | util/oc_endpoint_address.c:397-418 |
| `removeByUri` | util/oc_endpoint_address.c:351-360 |
| `clear` | util/oc_endpoint_address.c:362-371 |
| `select` | util/oc_endpoint_address.c:420-429 |
| `selectByUri` | util/oc_endpoint_address.c:431-441 |
| `selectNext` | util/oc_endpoint_address.c:443-451 |
| `selected` | util/oc_endpoint_address.c:461-465 |
| `isSelected` | util/oc_endpoint_address.c:453-459 |

## Etag.Model

| definition | code |
|---|---|
| `random` | oc_etag.c:67-71 |
| `setGlobal` | oc_etag.c:79-90; oc_etag_internal.h:37 |
| `get` | oc_etag.c:92-102 |
| `Group` | oc_etag_internal.h:92 |
| `G` | oc_etag.c:65 |
| `G.get` | oc_etag.c:92-102 |
| `assign` | oc_etag.c:715-719; oc_server_api.c:358; oc_core_res.c:553 |
| `toI64` | oc_etag.c:253, :255; oc_rep_decode.c:306 |
| `ofI64` | oc_etag.c:353, :360 |
| `ignored` | oc_etag.c:211-228 |
| `encodeRes` | oc_etag.c:230-279 |
| `encodeGroup` | oc_etag.c:286-297 |
| `readEtag` | oc_etag.c:327-362 |
| `loadGroup` | oc_etag.c:371-396, :413-427 |
| `clearGroup` | oc_etag.c:457-461, :471-475 |
| `loadStep` | oc_etag.c:457-485 |
| `loadAll` | oc_etag.c:457-485 |
| `fillAll` | oc_etag.c:490-503 |
| `bump` | oc_etag.c:486-487 |
| `canGroup` | oc_etag.c:439-448 |
| `load` | oc_etag.c:450-505 |
| `clearStore` | oc_etag.c:194-209 |
| `serve` | api/oc_ri.c:1666-1688 |
| `incKey` | oc_etag_internal.h:56 |
| `incValue` | oc_etag.c:114-137 |
| `incValues` | oc_etag.c:139-164 |
| `incQuery` | oc_etag.c:166-188 |

## Etimer.Model

| definition | code |
|---|---|
| `ET` | util/oc_etimer.h |
| `St` | util/oc_etimer.c:43-45 |
| `evTimer` | util/oc_process.h |
| `minUntil` | util/oc_etimer.c:62-67 |
| `updateTime` | util/oc_etimer.c:49-70 |
| `pollWalk` | util/oc_etimer.c:72-100 |
| `pollOnce` | util/oc_etimer.c:72-100 |
| `pollAll` | util/oc_etimer.c:138-140 |
| `exited` | util/oc_etimer.c:102-121 |
| `addTimer` | util/oc_etimer.c:153-176 |
| `etSet` | util/oc_etimer.c:178-184 |
| `etResetNew` | util/oc_etimer.c:186-193 |
| `etReset` | util/oc_etimer.c:195-200 |
| `etRestart` | util/oc_etimer.c:202-207 |
| `etAdjust` | util/oc_etimer.c:209-214 |
| `etStop` | util/oc_etimer.c:246-275 |
| `etExpired` | util/oc_etimer.c:216-220 |
| `nextExpiration` | util/oc_etimer.c:234-244 |
| `init` | util/oc_etimer.c:126 |

## Factory.Model

| definition | code |
|---|---|
| `number` | api/oc_resource_factory.c:103-106 |
| `indexOf` | api/oc_resource_factory.c:79-108 |
| `findLoop` | api/oc_resource_factory.c:77-121 |
| `uriSize` | api/oc_resource_factory.c:33-35 |
| `uniqueIndex` | api/oc_resource_factory.c:67-124 |
| `decInt` | api/oc_resource_factory.c:158, 164 |
| `instanceUri` | api/oc_resource_factory.c:139-167 |
| `alpha` | api/oc_resource_factory.c:40-41 |
| `randomUri` | api/oc_resource_factory.c:37-50, 187 |
| `newUri` | api/oc_resource_factory.c:183-188 |
| `R` | include/oc_ri.h:317-360 |
| `World` | api/oc_ri.c; api/oc_resource_factory.c:31; api/oc_collection.c:61 |
| `Coll` | api/oc_ri.c:257-277 |
| `findFactory` | api/oc_collection.c:355-367 |
| `addFactory` | api/oc_collection.c:381-403 |
| `Parsed` | api/oc_collection.c:437-482 |
| `maskOf` | api/oc_collection.c:448-453 |
| `bmOf` | api/oc_collection.c:458-462 |
| `parse1` | api/oc_collection.c:442-481 |
| `parse` | api/oc_collection.c:441-484 |
| `secureBit` | include/oc_ri.h:62 |
| `typeOf` | api/oc_collection.c:492-494 |
| `knownType` | api/oc_collection.c:495-499 |
| `inUse` | api/oc_ri.c:257-277 |
| `getInstance` | apps/smart_home_server_linux.c:501-534 |
| `dropRes` | api/oc_ri.c:566-616 |
| `freeCreated` | api/oc_resource_factory.c:212-223; apps/smart_home_server_linux.c:536-549 |
| `creatorPerm` | security/oc_acl.c:268 |
| `Answer` | api/oc_collection.c:519-548 |
| `fail` | api/oc_collection.c:414-422, 561-563 |
| `newRes` | api/oc_collection.c:489-491 |
| `finish` | api/oc_collection.c:514-557 |
| `make` | api/oc_resource_factory.c:169-210; api/oc_collection.c:504-557 |
| `create` | api/oc_collection.c:424-564 |
| `delete` | api/oc_ri.c:549-617 |
| `freeLoop` | api/oc_resource_factory.c:225-261 |
| `reset` | security/oc_pstat.c:414-417 |

## Hex.Model

| definition | code |
|---|---|
| `digit` | api/oc_helpers.c:376 |
| `toHex` | api/oc_helpers.c:367-382 |
| `scanDigit` | api/oc_helpers.c:406, 412 |
| `pairLoop` | api/oc_helpers.c:410-414 |
| `ofHex` | api/oc_helpers.c:384-417 |

## Json.EncModel

| definition | code |
|---|---|
| `Sub` | api/oc_rep_encode_json.c:30-35 |
| `Enc` | api/oc_rep_encode.c:91-117 |
| `wouldOverflow` | api/oc_rep_encode_json.c:49-57; api/oc_rep_encode.c:71-82 |
| `append` | api/oc_rep_encode_json.c:59-76 |
| `separator` | api/oc_rep_encode_json.c:78-97 |
| `Op` | api/oc_rep_encode.c:458-939 |
| `printInt` | api/oc_rep_encode_json.c:152 |
| `refused` | api/oc_rep_encode_json.c:102, 120, 145-150, 168-173, 196, 244-251, 275, 295; api/oc_rep_encode_json_internal.h:32-34 |
| `body` | api/oc_rep_encode_json.c:107-108, 126-132, 157, 180, 204-206, 253, 279, 299 |
| `afterValue` | api/oc_rep_encode_json.c:110-113 |
| `afterText` | api/oc_rep_encode_json.c:210-226 |
| `bufRealloc` | api/oc_rep_encode.c:129-158 |
| `call` | api/oc_rep_encode.c:468-488 |
| `opened` | api/oc_rep_encode_json.c:261-308 |
| `step` | include/oc_rep.h |
| `init` | api/oc_rep_encode.c:91-117 |
| `payload` | api/oc_rep_encode.c:363-389 |

## Json.EncSpec

| definition | code |
|---|---|
| `Calls` | include/oc_rep.h |

## Json.Model

| definition | code |
|---|---|
| `Kind` | util/jsmn/jsmn_internal.h |
| `isDelim` | util/jsmn/jsmn.c:85-95 |
| `scanPrim` | util/jsmn/jsmn.c:77-115 |
| `StrSt` | util/jsmn/jsmn.c:134-165; util/jsmn/jsmn.c:117-132 |
| `StrRes` | util/jsmn/jsmn.c:183-196 |
| `isHex` | util/jsmn/jsmn.c:125 |
| `isEsc` | util/jsmn/jsmn.c:143-153 |
| `plainStep` | util/jsmn/jsmn.c:180-194 |
| `strStep` | util/jsmn/jsmn.c:117-197 |
| `scanStr` | util/jsmn/jsmn.c:170-197 |
| `Parser` | util/jsmn/jsmn_internal.h; util/jsmn/jsmn.c:290-294 |
| `openC` | util/jsmn/jsmn.c:199-208 |
| `closeC` | util/jsmn/jsmn.c:210-232 |
| `isSkip` | util/jsmn/jsmn.c:266-272 |
| `scanF` | util/jsmn/jsmn.c:234-311 |
| `feed` | util/jsmn/jsmn.c:110, 185, 228 |
| `jsmn` | util/jsmn/jsmn.c:289-319 |
| `Val` | include/oc_rep.h; api/oc_rep_decode_json.c:88 |
| `Node` | include/oc_rep.h |
| `Data` | api/oc_rep_decode_json.c:37-49 |
| `setRep` | api/oc_rep_decode_json.c:59-86 |
| `parseString` | api/oc_rep_decode_json.c:51-57 |
| `isNull` | api/oc_rep_decode_json.c:108-115 |
| `parseBool` | api/oc_rep_decode_json.c:117-139 |
| `strtoll` | api/oc_rep_decode_json.c:149-154 |
| `parseInt` | api/oc_rep_decode_json.c:141-159 |
| `primVal` | api/oc_rep_decode_json.c:169-181 |
| `parsePrim` | api/oc_rep_decode_json.c:161-184 |
| `parseObj` | api/oc_rep_decode_json.c:189-225 |
| `Elem` | api/oc_rep_decode_json.c:234-259 |
| `elemType` | api/oc_rep_decode_json.c:238-259 |
| `scanType` | api/oc_rep_decode_json.c:234-269 |
| `assignBool` | api/oc_rep_decode_json.c:278-292 |
| `assignInt` | api/oc_rep_decode_json.c:319-333 |
| `itemMax` | include/oc_helpers.h:190 |
| `assignStr` | api/oc_rep_decode_json.c:360-377 |
| `assignObj` | api/oc_rep_decode_json.c:404-412 |
| `fill` | api/oc_rep_decode_json.c:294-317, 335-358, 379-402 |
| `fillObj` | api/oc_rep_decode_json.c:414-444 |
| `parseArr` | api/oc_rep_decode_json.c:449-495 |
| `parseTok` | api/oc_rep_decode_json.c:497-516 |
| `Result` | api/oc_rep_decode_json.c:518-557; api/oc_rep_internal.h |
| `finish` | api/oc_rep_decode_json.c:540-555 |
| `decode` | api/oc_rep_decode_json.c:518-557 |

## Life.Model

| definition | code |
|---|---|
| `Obj` | include/oc_ri.h; api/oc_collection_internal.h; api/oc_collection.c:203-209 |
| `Iface` | include/oc_ri.h; messaging/coap/observe.c:1087-1090 |
| `Obs` | messaging/coap/observe_internal.h |
| `Fn` | api/oc_server_api.c:736-741, 790-795; api/oc_ri.c:289; api/oc_collection.c:79-105 |
| `Cb` | api/oc_event_callback_internal.h |
| `St` | include/oc_ri.h:347; api/oc_ri.c:88-90; api/oc_collection.c:58 |
| `init` | api/oc_ri.c:88-90 |
| `derefs` | api/oc_collection.c:671-727 |
| `new` | api/oc_server_api.c:360-396 |
| `inUse` | api/oc_ri.c:257-277 |
| `add` | api/oc_ri.c:636-673; api/oc_collection.c:323-338 |
| `schedule` | api/oc_server_api.c:254-267 |
| `insert` | api/oc_collection.c:193-216 |
| `link` | api/oc_link.c:60-79; api/oc_collection.c:178-219, 162-176 |
| `unlink` | api/oc_collection.c:221-244; api/oc_link.c:82-100 |
| `removeObs` | messaging/coap/observe.c:223-249 |
| `removeList` | messaging/coap/observe.c:255-277 |
| `removeBy` | messaging/coap/observe.c:255-277 |
| `silent` | messaging/coap/observe.c:266-268 |
| `addObs` | messaging/coap/observe.c:322-354 |
| `observe` | api/oc_ri.c:895-925; messaging/coap/observe.c:312-354; api/oc_collection.c:641-725 |
| `cancel` | messaging/coap/observe.c:404-441 |
| `leave` | messaging/coap/observe.c:375-385 |
| `reset` | messaging/coap/observe.c:522-552 |
| `notes` | messaging/coap/observe.c:821-836, 1076-1116 |
| `noteCol` | messaging/coap/observe.c:812-836, 838-900 |
| `noteOwn` | messaging/coap/observe.c:1052-1118, 1135-1187 |
| `linkers` | api/oc_collection.c:603-631 |
| `batchOf` | messaging/coap/observe.c:812-836, 970 |
| `noteLinkers` | messaging/coap/observe.c:920-979 |
| `changed` | api/oc_server_api.c:726-734, 771-788; messaging/coap/observe.c:1135-1193 |
| `changedLater` | api/oc_server_api.c:797-814 |
| `observersLater` | api/oc_server_api.c:743-769 |
| `wrote` | api/oc_collection.c:1080-1087 |
| `eraseUri` | api/oc_collection.c:276-308 |
| `dropLinks` | api/oc_ri.c:570-587 |
| `unlist` | api/oc_ri.c:590-595; api/oc_server_api.c:882-888 |
| `endObs` | api/oc_ri.c:597-604; messaging/coap/observe.c:472-516 |
| `delete` | api/oc_ri.c:549-634 |
| `later` | api/oc_ri.c:279-307 |
| `deleteCol` | api/oc_collection.c:118-150 |
| `call` | api/oc_server_api.c:736-741, 790-795; api/oc_ri.c:288-296; api/oc_collection.c:79-105 |
| `fire` | api/oc_event_callback.c |

## Memb.Model

| definition | code |
|---|---|
| `Pool` | util/oc_memb.h:134-141 |
| `St` | util/oc_memb.h:134-141 |
| `ptrSize` | util/oc_memb.c:49 |
| `init` | util/oc_memb.c:44-51 |
| `allocLoop` | util/oc_memb.c:67-76 |
| `alloc` | util/oc_memb.c:53-100 |
| `freeLoop` | util/oc_memb.c:121-133 |
| `numfree` | util/oc_memb.c:153-163 |
| `free` | util/oc_memb.c:102-144 |
| `inmemb` | util/oc_memb.c:146-151 |
| `store` | util/oc_memb.c |

## Mmem.Model

| definition | code |
|---|---|
| `Blk` | util/oc_mmem.h |
| `St` | util/oc_mmem.c:60-70 |
| `alloc` | util/oc_mmem.c:105-135, 143 |
| `fromHandle` | util/oc_mmem.c:170, 192 |
| `shiftAfter` | util/oc_mmem.c:192-205; util/oc_mmem.c:211 |
| `free` | util/oc_mmem.c:146-227 |
| `store` | util/oc_mmem.h |
| `available` | util/oc_mmem.c:231-244 |
| `init` | util/oc_mmem.c:60-70 |

## MsgRef.Model

| definition | code |
|---|---|
| `Call` | api/oc_message.c:182-193 |
| `start` | api/oc_message.c:90 |
| `shrink` | api/oc_message.c:230-247 |

## NetQueue.Model

| definition | code |
|---|---|
| `TPc` | port/linux/ipadapter.c:1073-1117 |
| `Th` | api/oc_network_events.c:168-171 |
| `MPc` | api/oc_network_events.c:79-128 |
| `count` | api/oc_network_events.c:49-60 |
| `wakeLoop` | api/oc_network_events.c:62-76 |
| `mainStep` | api/oc_network_events.c:79-128 |

## Notify.Model

| definition | code |
|---|---|
| `ifBaseline` | include/oc_ri.h:170 |
| `ifB` | include/oc_ri.h:172 |
| `ifRw` | include/oc_ri.h:174 |
| `ifStartup` | include/oc_ri.h:179 |
| `ifRevert` | include/oc_ri.h:180 |
| `content` | messaging/coap/constants.h:138 |
| `valid` | messaging/coap/constants.h:136 |
| `clearTx` | messaging/coap/constants.h:162 |
| `Obs` | observe_internal.h |
| `Xf` | api/oc_blockwise_internal.h:60-80; observe.c:604 |
| `Ans` | api/oc_server_api.c:136-209 |
| `inc` | coap_internal.h:189-190; observe.c:194-202 |
| `finish` | observe.c:757-792 |
| `own` | observe.c:600-602 |
| `sendBlocks` | observe.c:591-661 |
| `sendOne` | observe.c:714-793 |
| `fill` | observe.c:1000-1050 |
| `Res` | include/oc_ri.h |
| `pass` | observe.c:1077-1094 |
| `ifOf` | observe.c:1057-1063 |
| `iterLoop` | observe.c:1074-1115 |
| `iterate` | observe.c:1052-1118 |
| `Coll` | api/oc_collection.h |
| `collPass` | observe.c:824-830 |
| `collLoop` | observe.c:812-836 |
| `collsLoop` | observe.c:948-971 |
| `collections` | observe.c:1120-1132, 920-979 |
| `internal` | observe.c:1134-1193 |
| `discLoop` | observe.c:1567-1582 |
| `notify` | observe.c:1596-1620 |

## Notify.Spec

| definition | code |
|---|---|
| `Distinct` | observe.c:319-326 |

## Observe.Model

| definition | code |
|---|---|
| `Obs` | messaging/coap/observe_internal.h |
| `St` | include/oc_ri.h:347 |
| `seqStart` | coap_internal.h:189-190 |
| `seqMax` | coap_internal.h:190 |
| `inc` | observe.c:194-202 |
| `removeOne` | observe.c:223-249 |
| `removeLoop` | observe.c:255-278 |
| `removeBy` | observe.c:255-278 |
| `matchData` | observe.c:288-297 |
| `matchEndpoint` | observe.c:367-373 |
| `matchToken` | observe.c:393-402 |
| `matchMid` | observe.c:423-430 |
| `stripSlash` | observe.c:480-494 |
| `matchResource` | observe.c:472-498 |
| `matchDevice` | observe.c:525-532 |
| `add` | observe.c:313-354 |
| `deleteResource` | api/oc_ri.c:565-624 |
| `notifyOne` | observe.c:714-793 |
| `exec` | observe.c:1052-1118 |
| `init` | observe.c:192, 210 |

## Obt.Model

| definition | code |
|---|---|
| `Method` | include/oc_pki.h; security/oc_doxm_internal.h |
| `Method.oxm` | security/oc_doxm_internal.h |
| `Key` | security/oc_tls.c |
| `Dos` | security/oc_pstat_internal.h |
| `Req` | security/oc_obt_otm_justworks.c:670-688; security/oc_obt_otm_randompin.c:600-618; security/oc_obt.c:836-966, 1480-1702, 2596-2771 |
| `Req.plain` | security/oc_obt_otm_justworks.c:655, 717 |
| `Handle` | security/oc_obt_internal.h:46-53 |
| `Ctx` | security/oc_obt_internal.h:80-119, 182-190 |
| `St` | security/oc_obt.c:60-117 |
| `lookup` | security/oc_obt.c:151-163 |
| `isOwned` | security/oc_obt.c:177-191 |
| `removeBy` | security/oc_cred.c:287-296 |
| `freeDevice` | security/oc_obt.c:264-273 |
| `finish` | security/oc_obt.c:434-457 |
| `start` | security/oc_obt_otm_justworks.c:689-725; security/oc_obt_otm_cert.c; security/oc_obt_otm_randompin.c:619-691; security/oc_obt.c:936-966 |
| `Resp` | include/oc_ri.h:75-107 |
| `badRequest` | include/oc_ri.h:81 |
| `unauthorized` | include/oc_ri.h:82 |
| `notFound` | include/oc_ri.h:85 |
| `requestTimeout` | include/oc_ri.h:99 |
| `connectionClosed` | include/oc_ri.h:103 |
| `goesOn` | security/oc_obt_otm_justworks.c:270-277; security/oc_obt.c:844 |
| `respond` | security/oc_obt.c:402-419 |
| `cacheNew` | security/oc_obt.c:226-262 |

## Obt.Spec

| definition | code |
|---|---|
| `Fair` | api/oc_client_api.c |

## ObtDel.Lemmas

| definition | code |
|---|---|
| `Op.Fair` | api/client/oc_client_cb.c:283 |

## ObtDel.Model

| definition | code |
|---|---|
| `Kind` | security/oc_obt.c:3113-3146, 3445-3479 |
| `Ctx` | security/oc_obt_internal.h |
| `badRequest` | include/oc_ri.h:81 |
| `changed` | include/oc_ri.h:78 |
| `deletedCode` | include/oc_ri.h:79 |
| `forbidden` | include/oc_ri.h:84 |
| `notFound` | include/oc_ri.h:85 |
| `requestTimeout` | include/oc_ri.h:99 |
| `deleteAce` | security/oc_acl.c:503-540; security/oc_obt.c:3431-3432 |
| `deleteCred` | security/oc_cred.c:1553-1586; security/oc_obt.c:3099-3100 |
| `switch` | security/oc_obt.c:852-895 |
| `find` | security/oc_obt.c:402-413 |
| `finish` | security/oc_obt.c:3025-3040 |
| `switchOk` | security/oc_obt.c:835-850 |
| `handle` | security/oc_obt.c:3048-3111 |
| `fail` | include/oc_ri.h:97-106 |
| `start` | security/oc_obt.c:3113-3146 |

## ObtFind.Model

| definition | code |
|---|---|
| `Ep` | include/oc_endpoint.h |
| `Dev` | security/oc_obt_internal.h |
| `badRequest` | include/oc_ri.h:81 |
| `Reader` | api/oc_endpoint.c |
| `otherFamily` | security/oc_obt.c:493-496 |
| `pick` | security/oc_obt.c:478-518 |
| `pickAll` | security/oc_obt.c:529-543 |
| `gather` | security/oc_obt.c:520-545 |
| `anchor` | security/oc_obt.c:560-567 |
| `readLink` | security/oc_obt.c:553-576 |
| `cacheNew` | security/oc_obt.c:226-262 |
| `tell` | security/oc_obt.c:603-606 |
| `multi` | security/oc_obt.c:547-607 |
| `answer` | security/oc_obt.c:547-607 |
| `readId` | api/oc_uuid.c:120-128 |
| `readDoxm` | security/oc_obt.c:616-642 |
| `doxm` | security/oc_obt.c:609-661 |
| `discover` | security/oc_obt.c:664-762 |
| `Op` | security/oc_obt.c:467-476 |

## ObtFind.Props

| definition | code |
|---|---|
| `epObj` | api/oc_discovery.c:138-155 |
| `linkOf` | api/oc_discovery.c:216-262 |

## ObtInit.Model

| definition | code |
|---|---|
| `keyMax` | security/oc_keypair_internal.h:36 |
| `gidLen` | messaging/coap/oscore_constants.h:24 |
| `secretLen` | messaging/coap/oscore_constants.h:27 |
| `Keys` | security/oc_obt.c:122-129 |
| `zero` | security/oc_obt.c:122-129 |
| `genCtxid` | security/oc_obt.c:389-394 |
| `dump` | security/oc_obt.c:276-309 |
| `copy` | api/oc_rep_decode.c:320-334 |
| `loadProp` | security/oc_obt.c:333-379 |
| `load` | security/oc_obt.c:311-384 |
| `init` | security/oc_obt.c:3813-3851; security/oc_security.c:109-135; security/oc_obt.c:3783-3810; security/oc_obt_certs.c:68-95 |
| `boot` | security/oc_obt.c:122-129 |

## ObtRead.Model

| definition | code |
|---|---|
| `textOf` | include/oc_rep.h; util/oc_memb.c:78-86 |
| `readUuid` | api/oc_uuid.c:120-128 |
| `newString` | api/oc_helpers.c:77-93 |
| `Sub` | include/oc_acl.h:96-104 |
| `ROut` | include/oc_acl.h:81-90 |
| `RAce` | include/oc_acl.h:110-119 |
| `setUuid` | security/oc_obt.c:3194-3197 |
| `setRole` | security/oc_obt.c:3198-3203 |
| `setAuthority` | security/oc_obt.c:3204-3209 |
| `setConn` | security/oc_obt.c:3210-3222 |
| `decodeSub` | security/oc_obt.c:3192-3225 |
| `decodeMembers` | security/oc_obt.c:3173-3230 |
| `wcOf` | security/oc_obt.c:3250-3258 |
| `decodeRes` | security/oc_obt.c:3239-3265 |
| `decodeAce` | security/oc_obt.c:3167-3267 |
| `decodeAces` | security/oc_obt.c:3166-3269 |
| `RAcl` | security/oc_obt.c:3164 |
| `decodeAcl` | security/oc_obt.c:3150-3280 |
| `badRequest` | include/oc_ri.h:76-81 |
| `aclResult` | security/oc_obt.c:3302-3320; util/oc_list.c:163-172 |
| `answerAce` | security/oc_ace.c:445-469 |
| `answerAcl` | security/oc_acl.c:112-143 |
| `RCred` | include/oc_cred.h:95-118 |
| `decodeData` | security/oc_obt.c:2846-2914 |
| `decodeRole` | security/oc_obt.c:2915-2931 |
| `decodeCred` | security/oc_obt.c:2819-2943 |
| `decodeCredArr` | security/oc_obt.c:2811-2945 |
| `decodeCreds` | security/oc_obt.c:2793-2958 |
| `credResult` | security/oc_obt.c:2968-2987 |
| `encodingText` | security/oc_cred_util.c:43-64 |
| `usageText` | security/oc_cred_util.c:230-253 |
| `subjectText` | security/oc_cred.c:847-854 |
| `answerRole` | security/oc_cred.c:855-868 |
| `answerPriv` | security/oc_cred.c:869-896 |
| `answerPub` | security/oc_cred.c:933-952 |
| `answerUsage` | security/oc_cred.c:926-932 |
| `answerCred` | security/oc_cred.c:842-963 |
| `answerCreds` | security/oc_cred.c:829-970 |
| `Tool` | security/oc_obt.c:99-106 |
| `retrieve` | security/oc_obt.c:3324-3354 |
| `respond` | security/oc_obt.c:3294-3322 |

## ObtRead.Spec

| definition | code |
|---|---|
| `KnownUsage` | include/oc_cred.h:55-61, 69-75 |

## OcList.Model

| definition | code |
|---|---|
| `St` | util/oc_list.c:41-44 |
| `St.setNext` | util/oc_list.c:81, 87, 94, 106, 107, 127, 137, 155, 156 |
| `St.init` | util/oc_list.c:46-50 |
| `tailLoop` | util/oc_list.c:72-73 |
| `St.tail` | util/oc_list.c:64-76 |
| `St.add` | util/oc_list.c:78-89 |
| `St.push` | util/oc_list.c:91-96 |
| `St.insert` | util/oc_list.c:98-108 |
| `chopLoop` | util/oc_list.c:123-124 |
| `St.chop` | util/oc_list.c:110-129 |
| `St.pop` | util/oc_list.c:131-141 |
| `removeLoop` | util/oc_list.c:152-159 |
| `St.remove` | util/oc_list.c:143-161 |
| `lengthLoop` | util/oc_list.c:166-171 |
| `St.length` | util/oc_list.c:163-172 |
| `hasLoop` | util/oc_list.c:177-182 |
| `St.has` | util/oc_list.c:174-183 |

## Oscore.Model

| definition | code |
|---|---|
| `pivLen` | messaging/coap/oscore_constants.h:24 |
| `ctxIdLen` | messaging/coap/oscore_constants.h:25 |
| `idCtxLen` | messaging/coap/oscore_constants.h:29-30 |
| `nonceLen` | messaging/coap/oscore_constants.h:23 |
| `winSize` | messaging/coap/oscore_constants.h:36 |
| `writeFreq` | messaging/coap/oscore_constants.h:42 |
| `padF` | messaging/coap/oscore_constants.h:43 |
| `leWord` | messaging/coap/oscore.c:80 |
| `wordBytes` | messaging/coap/oscore.c:80 |
| `bswap` | messaging/coap/oscore.c:86-90 |
| `readPiv` | messaging/coap/oscore.c:73-94 |
| `storePiv` | messaging/coap/oscore.c:96-128 |
| `putId` | security/oc_oscore_crypto.c:187-190 |
| `nonce` | security/oc_oscore_crypto.c:156-197 |
| `Pkt` | messaging/coap/coap_internal.h:170-178 |
| `setHeader` | messaging/coap/oscore.c:196-226; messaging/coap/coap_internal.h:172-176 |
| `optLength` | messaging/coap/oscore.c:330-338 |
| `optValue` | messaging/coap/oscore.c:349-383 |
| `serialize` | messaging/coap/oscore.c:326-389 |
| `copyIn` | messaging/coap/oscore.c:262-264 |
| `takePiv` | messaging/coap/oscore.c:257-268 |
| `finish` | messaging/coap/oscore.c:292-323 |
| `parseCtx` | messaging/coap/oscore.c:270-323 |
| `parse` | messaging/coap/oscore.c:228-324 |
| `optScan` | messaging/coap/oscore.c:467-506 |
| `isOscore` | messaging/coap/oscore.c:433-509 |
| `Win` | security/oc_oscore_context_internal.h |
| `Win.init` | security/oc_oscore_context.c:150 |
| `check` | security/oc_oscore_engine.c:52-68 |
| `accept` | security/oc_oscore_engine.c:187-265 |
| `St` | security/oc_cred.c:1405-1414 |
| `doSave` | security/oc_cred.c:899-922; security/oc_oscore_engine.c:44-50 |
| `step` | security/oc_oscore_engine.c:626-630, 682-687; security/oc_oscore_context.c:157-163; security/oc_cred.c: 1449-1451 |
| `St.init` | security/oc_cred.c:1189, 1405 |

## OscoreEng.Model

| definition | code |
|---|---|
| `Kind` | include/oc_cred.h:45-47 |
| `Mat` | security/oc_oscore_context_internal.h:33-56 |
| `Ctx` | security/oc_oscore_context_internal.h:33-56 |
| `Cb` | include/oc_client_state.h:117-142 |
| `Tr` | messaging/coap/transactions_internal.h:74-85 |
| `Inner` | messaging/coap/oscore.c:391-397 |
| `Cipher` | security/oc_oscore_crypto.c:277-297 |
| `Pkt` | messaging/coap/oscore.c:511-583 |
| `Ep` | include/oc_endpoint.h:90-113 |
| `aadArray` | security/oc_oscore_crypto.c:226-245 |
| `aad` | security/oc_oscore_crypto.c:210-275 |
| `byKid` | security/oc_oscore_context.c:49-64 |
| `byUuid` | security/oc_oscore_context.c:113-126 |
| `group` | security/oc_oscore_context.c:32-47 |
| `request` | security/oc_oscore_context.c:73-99 |
| `byToken` | security/oc_oscore_context.c:66-111 |
| `isReq` | security/oc_oscore_engine.c:129, 147, 223 |
| `lookup` | security/oc_oscore_engine.c:135-161 |
| `replay` | security/oc_oscore_engine.c:188-197 |
| `recvNonce` | security/oc_oscore_engine.c:186, 207-242; include/oc_endpoint.h:106 |
| `recvAad` | security/oc_oscore_engine.c:185, 199-201, 244-246 |
| `epPiv` | security/oc_oscore_engine.c:206-208, 227-233 |
| `decrypt` | security/oc_oscore_crypto.c:299-318 |
| `mkIn` | security/oc_oscore_engine.c:96-104 |
| `inner` | security/oc_oscore_engine.c:252-278 |
| `withCtx` | security/oc_oscore_engine.c:182-287 |
| `recv` | security/oc_oscore_engine.c:109-288; include/oc_client_state.h:138; include/oc_endpoint.h:106 |
| `Frame` | messaging/coap/oscore.c:433-509 |
| `recvMessage` | security/oc_oscore_engine.c:290-351 |
| `answer` | messaging/coap/oscore.c:32-71 |
| `asReq` | security/oc_oscore_engine.c:610-616 |
| `innerOf` | security/oc_oscore_engine.c:732-741, 749-751 |
| `outerCode` | messaging/coap/oscore.c:130-158 |
| `mkPkt` | security/oc_oscore_engine.c:757-804 |
| `kept` | security/oc_oscore_engine.c:667-671, 707-711 |
| `note` | security/oc_oscore_engine.c:643-645 |
| `noted` | security/oc_oscore_engine.c:632-647 |
| `sendReq` | security/oc_oscore_engine.c:623-671 |
| `sendRsp` | security/oc_oscore_engine.c:678-814 |
| `send` | security/oc_oscore_engine.c:509-820 |
| `groupWith` | security/oc_oscore_engine.c:378-499 |
| `sendGroup` | security/oc_oscore_engine.c:354-506 |
| `notifNum` | api/client/oc_client_cb.c:448-458 |
| `taker` | messaging/coap/engine.c:893-901 |

## OscoreEng.Spec

| definition | code |
|---|---|
| `Spec.Proper` | security/oc_oscore_context_internal.h |

## PlgdTime.Model

| definition | code |
|---|---|
| `tps` | port/linux/oc_config.h:18 |
| `St` | api/plgd/plgd_time_internal.h:65-79 |
| `time` | api/plgd/plgd_time.c:193-241 |
| `put` | api/plgd/plgd_time.c:112-122, 99-110 |
| `setTime` | api/plgd/plgd_time.c:141-167 |
| `text` | api/plgd/plgd_time.c:352-360, 400-406 |
| `lstText` | api/plgd/plgd_time.c:385-409 |
| `timeText` | api/plgd/plgd_time.c:342-363 |
| `statusText` | api/plgd/plgd_time.c:267-279 |
| `statusOf` | api/plgd/plgd_time.c:281-298 |
| `statusProp` | api/plgd/plgd_time.c:365-383 |
| `encode` | api/plgd/plgd_time.c:411-450, 300-324 |
| `dump` | api/plgd/plgd_time.c:483-501 |
| `lastLst` | api/plgd/plgd_time.c:455-472 |
| `decode` | api/plgd/plgd_time.c:452-481 |
| `apiSet` | api/plgd/plgd_time.c:169-173 |
| `load` | api/plgd/plgd_time.c:503-532 |
| `post` | api/plgd/plgd_time.c:534-565 |

## Process.DispatchModel

| definition | code |
|---|---|
| `PSt` | util/oc_process.c |
| `evInit` | util/oc_process.h |
| `evPoll` | util/oc_process.h |
| `evExit` | util/oc_process.h |
| `evExited` | util/oc_process.h |
| `Stage` | util/oc_process.c |
| `Fr` | util/oc_process.c |
| `After` | util/oc_process.c |
| `Base` | util/oc_process.c |
| `St` | util/oc_process.c |
| `succ` | util/oc_process.h |
| `St.next` | util/oc_process.h |
| `exitEnter` | util/oc_process.c |
| `sweepStart` | util/oc_process.c |
| `runStart` | util/oc_process.c |
| `unlink` | util/oc_process.c |
| `tickFr` | util/oc_process.c |
| `tickBase` | util/oc_process.c |
| `Act` | util/oc_process.c |
| `ret` | util/oc_process.c |
| `poll` | util/oc_process.c |
| `start` | util/oc_process.c |

## Process.Model

| definition | code |
|---|---|
| `Ev` | util/oc_process.c:66-71 |
| `Q` | util/oc_process.c:73-85 |
| `zeroEv` | util/oc_process.c:252, 465 |
| `init` | util/oc_process.c:248-263; util/oc_process.c:73-77 |
| `growLoop` | util/oc_process.c:459-467 |
| `grow` | util/oc_process.c:449-468 |
| `append` | util/oc_process.c:474-478 |
| `post` | util/oc_process.c:441-481 |
| `take` | util/oc_process.c:305-317 |
| `dropAt` | util/oc_process.c:411-412, 419-435 |
| `dropLoop` | util/oc_process.c:410-437 |
| `drop` | util/oc_process.c:399-439 |
| `iterate` | util/oc_process.c:387-397 |

## Pstat.Model

| definition | code |
|---|---|
| `Pstat` | security/oc_pstat_internal.h:61-72 |
| `validTransition` | security/oc_pstat.c:137-160 |
| `checkPs` | security/oc_pstat.c:177-207 |
| `ownerOk` | security/oc_pstat.c:217-267; security/oc_cred.c:320-335 |
| `checkState` | security/oc_pstat.c:209-269 |
| `rfotm` | security/oc_pstat.c:337-372 |
| `resetNow` | security/oc_pstat.c:277-335 |
| `enter` | security/oc_pstat.c:373-405, 410 |
| `handleState` | security/oc_pstat.c:271-431 |
| `resetDevice` | security/oc_pstat.c:711-718 |
| `delayReset` | security/oc_pstat.c:744-775 |
| `resetV1` | security/oc_pstat.c:777-784 |
| `decodeDos` | security/oc_pstat.c:593-613 |
| `Dec` | security/oc_pstat.c:576-587 |
| `decodeInt` | security/oc_pstat.c:626-639 |
| `decodeProp` | security/oc_pstat.c:588-658 |
| `collect` | security/oc_pstat.c:588-658 |
| `applyPs` | security/oc_pstat.c:665-675 |
| `decode` | security/oc_pstat.c:573-676 |
| `dosInt` | security/oc_pstat_internal.h:47-53 |
| `encode` | security/oc_pstat.c:505-530 |
| `ownResources` | security/oc_security.c:85-107 |
| `selfDisown` | security/oc_security.c:137-150; security/oc_pstat.c:491-503 |
| `restart` | api/oc_main.c:301-343 |
| `Op` | security/oc_acl.c:354-386; security/oc_cred.c:1126-1161 |

## Push.Model

| definition | code |
|---|---|
| `PState` | api/oc_push.c:74-82 |
| `Ns` | api/oc_push.c:88-108 |
| `Rsc` | include/oc_ri.h:317-360 |
| `Env` | api/oc_endpoint.c |
| `arrCopy` | api/oc_push.c:401-412, :422-433, :454-464; api/oc_helpers.c:324-334 |
| `setTarget` | api/oc_push.c:290-348 |
| `setState` | api/oc_push.c:365-391 |
| `setStr` | api/oc_push.c:270-392 |
| `setStrs` | api/oc_push.c:394-467 |
| `setOne` | api/oc_push.c:269-473 |
| `settle` | api/oc_push.c:476-495 |
| `setProps` | api/oc_push.c:256-496 |
| `maskOf` | api/oc_ri.c:703-734 |
| `firstByte` | include/oc_helpers.h:235-236 |
| `pifMask` | api/oc_push.c:2664-2670 |
| `anyIn` | api/oc_push.c:2548-2570 |
| `allMatched` | api/oc_push.c:2607-2686 |
| `findRsc` | api/oc_ri.c:449-477 |
| `loop` | api/oc_push.c:2599-2713 |
| `changed` | api/oc_push.c:2578-2714 |
| `codeState` | api/oc_push.c:2314-2345 |
| `fresh` | api/oc_push.c:696-756 |
| `create` | api/oc_collection.c:503-513 |
| `update` | api/oc_push.c:644-658 |
| `accepts` | api/oc_push.c:644-658 |
| `delete` | api/oc_push.c:668-683 |
| `respond` | api/oc_push.c:2314-2345 |

## PushRecv.Model

| definition | code |
|---|---|
| `Recv` | api/oc_push.c:110-118 |
| `PRep` | include/oc_push.h:56-62 |
| `slotText` | include/oc_helpers.h:213-214, :217-218; api/oc_helpers.c:282-295 |
| `copyVal` | api/oc_push.c:1221-1275 |
| `copyRep` | api/oc_push.c:1203-1278 |
| `copyProp` | api/oc_push.c:1215-1219 |
| `copyObjs` | api/oc_push.c:1268-1271 |
| `showVal` | api/oc_push.c:858-1041 |
| `showRep` | api/oc_push.c:849-1044 |
| `showProp` | api/oc_push.c:866-868 |
| `showObjs` | api/oc_push.c:1018-1032 |
| `findRep` | api/oc_push.c:1053-1069 |
| `findApp` | api/oc_ri.c:449-477 |
| `inUse` | api/oc_ri.c:237-255 |
| `store` | api/oc_core_res.c:462-484 |
| `findRecv` | api/oc_push.c:1432-1447 |
| `purge` | api/oc_push.c:1704-1735; api/oc_ri.c:548-625 |
| `purgeList` | api/oc_push.c:1806-1824 |
| `take1` | api/oc_push.c:1912-1944 |
| `newRs` | api/oc_push.c:1745-1797 |
| `create` | api/oc_push.c:1899-1957 |
| `setUri` | api/oc_push.c:1843-1866 |
| `updObj` | api/oc_push.c:1834-1890 |
| `validObj` | api/oc_push.c:1983-2005 |
| `validList` | api/oc_push.c:1966-2017 |
| `replace` | api/oc_push.c:2026-2051 |
| `postOne` | api/oc_push.c:2090-2124 |
| `post` | api/oc_push.c:2057-2150 |
| `delete` | api/oc_push.c:2155-2230 |
| `checkRt` | api/oc_push.c:1128-1170 |
| `common` | api/oc_push.c:1528-1578 |
| `setCommon` | api/oc_push.c:1528-1578 |
| `keep` | api/oc_push.c:1585-1624 |
| `push` | api/oc_push.c:1483-1627 |
| `get` | api/oc_push.c:1078-1117 |

## Query.Model

| definition | code |
|---|---|
| `Pair` | oc_query.c:75-81 |
| `skipPairs` | oc_query.c:94-103 |
| `pairAt` | oc_query.c:104-122 |
| `findNth` | oc_query.c:83-123 |
| `nextPos` | oc_query.c:148-150 |
| `nthKeyValue` | oc_query.c:125-154 |
| `nthKeyExists` | oc_query.c:200-224 |
| `keyMax` | options_internal.h:90 |
| `valueLoop` | oc_query.c:168-187 |
| `getValue` | oc_query.c:156-189 |
| `existsLoop` | oc_query.c:236-250 |
| `keyExists` | oc_query.c:226-252 |
| `iterate` | oc_query.c:268-276 |
| `iterateValues` | oc_query.c:291-307 |

## Rep.Model

| definition | code |
|---|---|
| `Ty` | include/oc_rep.h:1178-1191 |
| `Val` | include/oc_rep.h |
| `getByTypeAndKey` | api/oc_rep.c:149-170; util/oc_secure_string_internal.h:33 |
| `getValue` | api/oc_rep.c:172-241 |
| `get` | api/oc_rep.c:243-400 |
| `Val.asNil` | include/oc_rep.h |
| `isNull` | api/oc_rep.c:243-253 |
| `getInt` | api/oc_rep.c:255-265 |
| `getBool` | api/oc_rep.c:267-277 |
| `getDouble` | api/oc_rep.c:279-289 |
| `getByteString` | api/oc_rep.c:291-302 |
| `getString` | api/oc_rep.c:304-319 |
| `getIntArray` | api/oc_rep.c:321-332 |
| `getBoolArray` | api/oc_rep.c:334-345 |
| `getDoubleArray` | api/oc_rep.c:347-358 |
| `getByteStringArray` | api/oc_rep.c:360-371 |
| `getStringArray` | api/oc_rep.c:373-384 |
| `getObject` | api/oc_rep.c:386-392 |
| `getObjectArray` | api/oc_rep.c:394-400 |

## RepJson.Model

| definition | code |
|---|---|
| `Leaf` | include/oc_rep.h |
| `sepLoop` | oc_rep_to_json.c:229-237, 249-257, 269-278 |
| `lineLoop` | oc_rep_to_json.c:291-312, 329-347 |
| `findable` | api/oc_rep.c:149-170; util/oc_secure_string_internal.h:33 |
| `leafProg` | oc_rep_to_json.c:164-206, 222-355 |
| `head` | oc_rep_to_json.c:152-163 |
| `tail` | oc_rep_to_json.c:398-406 |
| `format` | oc_rep_to_json.c:143-409 |
| `itemsProg` | oc_rep_to_json.c:364-386 |
| `rootArray` | oc_rep_to_json.c:418-419, 427 |
| `toJson` | oc_rep_to_json.c:411-440 |
| `Loc.update` | oc_rep_to_json.c:53-67 |
| `tabLoop` | oc_rep_to_json.c:86-90; util/oc_buffer.c:24-46 |
| `b64Mid` | oc_rep_to_json.c:119-128 |
| `b64Call` | oc_rep_to_json.c:101-132 |
| `dump` | oc_rep_to_json.c:411-440 |

## RepJson.Props

| definition | code |
|---|---|
| `Wf` | api/oc_rep_decode.c:248-253, 276 |

## Rfc3339.Model

| definition | code |
|---|---|
| `TS` | timestamp/timestamp.h:43-48 |
| `valid` | timestamp_valid.c:32-44 |
| `dayOffset` | timestamp_format.c:36-37; timestamp_parse.c:91-92; timestamp_tm.c:35-36 |
| `rdnParts` | timestamp_format.c:44-54; timestamp_tm.c:43-49 |
| `rdnToYmd` | timestamp_format.c:41-62 |
| `dig6` | timestamp_format.c:104, :110, :191 |
| `text19` | timestamp_format.c:100-131 |
| `fracDigits` | timestamp_format.c:136-171 |
| `fracText` | timestamp_format.c:134-175 |
| `offText` | timestamp_format.c:177-197 |
| `formatInternal` | timestamp_format.c:69-200 |
| `autoPrecision` | timestamp_format.c:222-234 |
| `format` | timestamp_format.c:215-236 |
| `formatPrecision` | timestamp_format.c:238-246 |
| `leapYear` | timestamp_parse.c:34-38 |
| `daysTable` | timestamp_parse.c:43-46 |
| `monthDays` | timestamp_parse.c:40-48 |
| `digit` | timestamp_parse.c:53-60 |
| `parse2d` | timestamp_parse.c:50-64 |
| `parse4d` | timestamp_parse.c:66-89 |
| `check` | timestamp_parse.c |
| `checkFormat` | timestamp_parse.c:94-104 |
| `dayFits` | timestamp_parse.c:118-120 |
| `parseDate` | timestamp_parse.c:106-129 |
| `parseTime` | timestamp_parse.c:131-147 |
| `parseOffset` | timestamp_parse.c:149-171 |
| `fracLoop` | timestamp_parse.c:208-214 |
| `parseFrac` | timestamp_parse.c:203-227 |
| `parseZone` | timestamp_parse.c:229-245 |
| `rdnOf` | timestamp_parse.c:198-199 |
| `parse` | timestamp_parse.c:173-250 |
| `compare` | timestamp_compare.c:32-44 |
| `TM` | timestamp_tm.c:60-64, :83-88 |
| `yearDay` | timestamp_tm.c:51-58 |
| `tmOf` | timestamp_tm.c:40-65 |
| `toTm` | timestamp_tm.c:69-90 |
| `certFormat` | security/oc_certs_generate.c:103-125 |
| `encodeTime` | api/oc_clock.c:35-46 |
| `fromTimespec` | api/oc_clock.c:58-63 |
| `parseClock` | api/oc_clock.c:65-78 |
| `X509Time` | security/oc_certs.c:644 |
| `daysOffset` | security/oc_certs.c:647-649 |
| `toUnix` | security/oc_certs.c:643-673 |

## Ri.Model

| definition | code |
|---|---|
| `Method` | include/oc_ri.h:60-66; engine.c:1074 |
| `Iface` | include/oc_ri.h:169-185 |
| `Iface.bit` | include/oc_ri.h:170-184 |
| `Iface.name` | oc_ri_internal.h:37-49 |
| `ifaceTable` | oc_ri.c:710-725 |
| `ifaceMask` | oc_ri.c:703-734 |
| `maskAllows` | oc_ri.c:736-765 |
| `Res` | include/oc_ri.h:317-360 |
| `strip1` | oc_core_res.c:676-679; oc_resource.c:92-95 |
| `coreTable` | oc_core_res.c:692-780 |
| `Core.find` | oc_core_res.c:783-798 |
| `Reg` | oc_ri.c; oc_collection.c:58 |
| `skipAll` | oc_ri.c:242-245; oc_collection.c:260-263 |
| `sameTail` | oc_ri.c:247-254; oc_collection.c:264-273 |
| `inList` | oc_ri.c:238-255 |
| `colFind` | oc_collection.c:255-274 |
| `inUse` | oc_ri.c:257-277 |
| `storeUri` | oc_core_res.c:462-484 |
| `addRes` | oc_ri.c:636-673 |
| `addCol` | oc_collection.c:323-338 |
| `delayedDelete` | oc_ri.c:279-307 |
| `deleteRes` | oc_ri.c:590-592; oc_collection.c:121 |
| `deleteCol` | oc_collection.c:118-141 |
| `appSame` | oc_ri.c:460-468 |
| `appFind` | oc_ri.c:449-477 |
| `lookup` | oc_resource.c:370-387 |
| `c205` | messaging/coap/constants.h |
| `undef` | include/oc_ri.h:115-150 |
| `cfSupported` | oc_rep_decode.c:574-596 |
| `Req` | oc_ri.c:1692-1740 |
| `Stage` | engine.c:513-593 |
| `Env` | oc_ri.c:1657-1665; oc_ri.c:859-891 |
| `diLoop` | oc_ri.c:382-395 |
| `diFilter` | oc_ri.c:371-396 |
| `ifaceQuery` | oc_ri.c:1493-1504 |
| `ifaceOf` | oc_ri.c:1540-1548 |
| `Mask` | oc_ri.c:1264-1273 |
| `Mask.success` | oc_ri.c:1506-1511 |
| `Mask.status` | oc_ri.c:1438-1491 |
| `headerMask` | oc_ri.c:1577-1621 |
| `header` | oc_ri.c:1550-1626 |
| `setEtag` | oc_ri.c:1638-1689 |
| `payloadMask` | oc_ri.c:1228-1262 |
| `invoke` | oc_ri.c:1298-1436 |
| `addObservation` | oc_ri.c:925-956; engine.c:254, 260, 275 |
| `observation` | oc_ri.c:988-1030 |
| `respond` | oc_ri.c:1122-1226; engine.c:658-744, 832-837 |
| `finish` | oc_ri.c:1829-1896 |
| `codeOf` | oc_ri.c:1753: 0 |
| `entity` | oc_ri.c:1742-1900 |
| `serve` | engine.c:778-838 |
| `encByAccept` | oc_rep_encode.c:202-217 |
| `acceptOk` | coap.c:697-705 |
| `sendResponse` | oc_server_api.c:170-196 |

## Sdi.Model

| definition | code |
|---|---|
| `Sdi` | security/oc_sdi_internal.h |
| `Data` | security/oc_sdi.c:111-117 |
| `decodeStr` | security/oc_sdi.c:119-153 |
| `decodeBool` | security/oc_sdi.c:155-176 |
| `collect` | security/oc_sdi.c:184-202 |
| `setUuid` | security/oc_sdi.c:209-211 |
| `setName` | security/oc_sdi.c:212-218 |
| `setPriv` | security/oc_sdi.c:219-221 |
| `decode` | security/oc_sdi.c:178-223 |
| `encode` | security/oc_sdi.c:233-258; security/oc_store.c:526-531 |

## Sec.Base

| definition | code |
|---|---|
| `strToUuid` | api/oc_uuid.c:120-128 |
| `parseUuid` | api/oc_uuid.c:104-118 |

## Separate.Model

| definition | code |
|---|---|
| `Req` | messaging/coap/separate.c:71-75; observe.c:558-587 |
| `Store` | messaging/coap/separate_internal.h:56-67 |
| `Sys` | messaging/coap/oc_coap.h:32-42 |
| `begin_` | messaging/coap/separate.c:83-92 |
| `same` | messaging/coap/separate.c:95-103 |
| `record` | messaging/coap/separate.c:105-134 |
| `clear` | messaging/coap/separate.c:177-187 |
| `accept` | messaging/coap/separate.c:71-160 |
| `request` | oc_ri.c:1143-1147; observe.c:583-586; separate.c:81 |
| `write` | api/oc_server_api.c:572-580 |
| `answer` | api/oc_server_api.c:597-662 |
| `answerOne` | api/oc_server_api.c:704-716 |
| `answers` | api/oc_server_api.c:702-718 |
| `send` | api/oc_server_api.c:680-724 |

## Session.Model

| definition | code |
|---|---|
| `Pc` | util/oc_process.c:269-283; api/oc_session_events.c:99-109 |
| `init` | util/oc_process.c:113-135 |
| `put` | api/oc_session_events.c:145-147, 168-170 |
| `step` | api/oc_session_events.c:130-174; util/oc_process.c:493-503 |
| `startEvent` | api/oc_session_events.c:141-142, 164-165 |
| `hit` | api/oc_session_events.c:249-264 |
| `fire` | api/oc_session_events.c:308-325 |

## Sp.Model

| definition | code |
|---|---|
| `Sp` | security/oc_sp_internal.h:33-38 |
| `oids` | include/oc_sp.h:45-48; security/oc_sp_internal.h:46-49 |
| `ofString` | security/oc_sp.c:126-146 |
| `toString` | security/oc_sp.c:148-162 |
| `collect` | security/oc_sp.c:172-193 |
| `mask` | security/oc_sp.c:195-207 |
| `setSupported` | security/oc_sp.c:195-209 |
| `setCurrent` | security/oc_sp.c:211-227 |
| `decode` | security/oc_sp.c:164-228 |
| `decodeFor` | security/oc_sp.c:230-238 |
| `names` | security/oc_sp.c:248-270 |
| `encode` | security/oc_sp.c:272-295; security/oc_store.c:146-151 |
| `dump` | security/oc_store.c:153-161 |
| `default` | security/oc_sp.c:91-96 |
| `setProfile` | security/oc_sp.c:47-55 |
| `post` | security/oc_sp.c:333-347 |
| `load` | security/oc_store.c:134-144; api/oc_storage.c:104-146 |
| `boot` | security/oc_sp.c:57-76; api/oc_main.c:320-327 |

## Storage.Model

| definition | code |
|---|---|
| `pathSize` | port/linux/storage.h:26 |
| `tagMax` | api/oc_storage_internal.h:40 |
| `eNoEnt` | port/linux/storage.c |
| `eIntr` | port/linux/storage.c:270 |
| `eAgain` | port/linux/storage.c:270 |
| `eInval` | port/linux/storage.c:45, 185 |
| `Store` | port/linux/storage.c:37-38 |
| `Store.init` | port/linux/storage.c:37-38 |
| `reset` | port/linux/storage.c:95-101 |
| `trim` | port/linux/storage.c:57-59 |
| `install` | port/linux/storage.c:61-76 |
| `config` | port/linux/storage.c:40-77 |
| `getPath` | port/linux/storage.c:79-93 |
| `fileName` | port/linux/storage.c:106-122 |
| `ReadEnv` | port/linux/storage.c:124-197 |
| `openFile` | port/linux/storage.c:103-139 |
| `readOpen` | port/linux/storage.c:172-207 |
| `read` | port/linux/storage.c:163-208 |
| `size` | port/linux/storage.c:141-161 |
| `WriteEnv` | port/linux/storage.c:219-267 |
| `writeAndFlush` | port/linux/storage.c:210-236 |
| `attempts` | port/linux/storage.c:258-274 |
| `write` | port/linux/storage.c:238-275 |
| `crash` | port/linux/storage.c:259-267 |
| `writeCrash` | port/linux/storage.c:238-275 |
| `genTag` | api/oc_storage.c:41-74 |
| `tagOf` | api/oc_storage.c:109-113, 222-226, 239-243 |
| `load` | api/oc_storage.c:104-146 |
| `save` | api/oc_storage.c:184-234 |
| `clear` | api/oc_storage.c:236-245 |
| `saveCrash` | api/oc_storage.c:227 |

## StrArr.Model

| definition | code |
|---|---|
| `itemMax` | include/oc_helpers.h:190 |
| `clear` | api/oc_helpers.c:276-279 |
| `alloc` | api/oc_helpers.c:263-280 |
| `count` | include/oc_helpers.h:219-220 |
| `itemSize` | include/oc_helpers.h:213-218 |
| `setItem` | api/oc_helpers.c:310-322 |
| `addLoop` | api/oc_helpers.c:327-332 |
| `addItem` | api/oc_helpers.c:324-334 |
| `joinLen` | api/oc_helpers.c:339-347 |
| `joinOne` | api/oc_helpers.c:352-362 |
| `joinCopy` | api/oc_helpers.c:349-363 |
| `join` | api/oc_helpers.c:336-365; api/oc_helpers.c:51 |
| `bSize` | include/oc_helpers.h:235-236 |
| `bItem` | include/oc_helpers.h:231-232 |
| `bSet` | api/oc_helpers.c:282-295 |
| `bAddLoop` | api/oc_helpers.c:301-306 |
| `bAdd` | api/oc_helpers.c:297-308 |
| `newString` | api/oc_helpers.c:76-93 |
| `setString` | api/oc_helpers.c:125-147 |
| `concat` | api/oc_helpers.c:206-218 |
| `isEqual` | api/oc_helpers.c:167-178 |

## Swu.Model

| definition | code |
|---|---|
| `Action` | api/oc_swupdate_internal.h:42-47 |
| `State` | api/oc_swupdate_internal.h:34-40 |
| `Swu` | api/oc_swupdate_internal.h:49-59; api/oc_swupdate.c:126 |
| `actionStr` | api/oc_swupdate.c:358-372 |
| `actionOf` | api/oc_swupdate.c:374-394 |
| `stateStr` | api/oc_swupdate.c:396-412 |
| `stateOf` | api/oc_swupdate.c:414-438 |
| `Clk` | api/oc_clock.c:35-78 |
| `clk` | api/oc_swupdate.c:504-512 |
| `Time` | api/oc_swupdate.c:78-83 |
| `Dec` | api/oc_swupdate.c:85-102 |
| `Err` | include/oc_swupdate.h |
| `decTime` | api/oc_swupdate.c:514-545 |
| `decState` | api/oc_swupdate.c:587-601 |
| `decLast` | api/oc_swupdate.c:609-617 |
| `decAction` | api/oc_swupdate.c:575-585 |
| `decStr` | api/oc_swupdate.c:547-631 |
| `decInt` | api/oc_swupdate.c:485-502 |
| `decProp` | api/oc_swupdate.c:633-644 |
| `Loop` | api/oc_swupdate.c:720-738 |
| `loop` | api/oc_swupdate.c:720-738 |
| `Impl` | include/oc_swupdate.h; api/oc_swupdate.c:982-992 |
| `checkTime` | api/oc_swupdate.c:646-660 |
| `checkPurl` | api/oc_swupdate.c:662-681 |
| `checkData` | api/oc_swupdate.c:683-711 |
| `skipPurl` | api/oc_swupdate.c:745-753 |
| `decode` | api/oc_swupdate.c:713-757 |
| `copyTime` | api/oc_swupdate.c:471-482 |
| `copy` | api/oc_swupdate.c:440-483 |
| `text` | include/oc_rep.h:443-445 |
| `encode` | api/oc_swupdate.c:866-919 |
| `St` | api/oc_swupdate.c:290-291 |
| `perform` | api/oc_swupdate.c:1097-1129 |
| `dump` | api/oc_swupdate.c:970-980 |
| `execute` | api/oc_swupdate.c:270-312 |
| `post` | api/oc_swupdate.c:314-337 |
| `wait` | api/oc_event_callback.c:196-240 |
| `default` | api/oc_swupdate.c:153-164 |
| `load` | api/oc_swupdate.c:944-958 |
| `available` | api/oc_swupdate.c:1007-1029; include/oc_swupdate.h:44 |
| `downloaded` | api/oc_swupdate.c:1031-1057 |
| `upgrading` | api/oc_swupdate.c:1059-1078 |
| `finished` | api/oc_swupdate.c:1080-1095 |
| `step` | api/oc_swupdate.c:121-131; api/oc_main.c:339 |

## TcpConn.Model

| definition | code |
|---|---|
| `same` | api/oc_endpoint.c:684-734 |
| `Sess` | port/linux/tcpsession.c:57-65 |
| `Wait` | port/linux/tcpsession.c:84-101 |
| `newId` | api/oc_tcp.c:90-95 |
| `idOf` | port/linux/tcpsession.c:254-256, 629-631 |
| `sendLoop` | port/linux/tcpsession.c:938-965 |
| `addSess` | port/linux/tcpsession.c:239-279, 320, 574-590 |
| `freeSess` | port/linux/tcpsession.c:324-345 |
| `findSess` | port/linux/tcpsession.c:547-559 |
| `findWait` | port/linux/tcpsession.c:592-604 |
| `watch` | port/linux/tcpsession.c:655-666 |
| `addWait` | port/linux/tcpsession.c:617-653, 668-684 |
| `freeWait` | port/linux/tcpsession.c:809-846 |
| `sendAll` | port/linux/tcpsession.c:1123-1140 |
| `promote` | port/linux/tcpsession.c:1142-1161 |
| `socket` | port/common/posix/oc_tcp_socket.c:134-161 |
| `openNew` | port/linux/tcpsession.c:716-743 |
| `connectLocked` | port/linux/tcpsession.c:692-743 |
| `enqueue` | port/linux/tcpsession.c:968-985 |
| `send` | port/linux/tcpsession.c:987-1029 |
| `send2` | port/linux/tcpsession.c:1030-1063 |
| `resultOf` | port/linux/tcpsession.c:1381-1411 |
| `connect` | port/linux/tcpsession.c:1373-1441 |
| `endSess` | port/linux/tcpsession.c:746-806 |
| `accept` | port/linux/tcpsession.c:281-322 |
| `signal` | port/linux/tcpsession.c:863-884 |
| `shutdown` | port/linux/tcpsession.c:347-358, 848-860, 887-896 |
| `processWait` | port/linux/tcpsession.c:1163-1198, 1327-1347 |
| `ready` | port/linux/tcpsession.c:1349-1371 |
| `check` | port/linux/tcpsession.c:1213-1241 |
| `retryWait` | port/linux/tcpsession.c:1243-1282, 1299-1309 |
| `smaller` | port/linux/tcpsession.c:1311-1313 |
| `tickLoop` | port/linux/tcpsession.c:1284-1325 |
| `empty` | port/oc_connectivity_internal.h:122-123 |

## TcpStream.Model

| definition | code |
|---|---|
| `validHeader` | api/oc_tcp.c:99-166 |
| `totalLength` | api/oc_tcp.c:202-223 |
| `recvLoop` | port/linux/tcpsession.c:434-486 |
| `receive` | port/linux/tcpsession.c:427-494; api/oc_tcp.c:168-193; api/oc_tcp_internal.h:35-36 |
| `receiveAll` | port/linux/ipadapter.c |

## Timer.Model

| definition | code |
|---|---|
| `W` | port/oc_clock.h |
| `Timer` | util/oc_timer.h |
| `set` | util/oc_timer.c:44-49 |
| `reset` | util/oc_timer.c:51-55 |
| `restart` | util/oc_timer.c:57-61 |
| `expired` | util/oc_timer.c:63-79 |
| `untilT` | util/oc_timer.c:81-94 |
| `expiration` | util/oc_timer.c:96-100 |

## Tls.HsModel

| definition | code |
|---|---|
| `Suite` | security/oc_tls.c:227-305 |
| `Prio` | security/oc_tls.c:257-265, 284-305 |
| `certSuites` | security/oc_tls.c:276-281 |
| `cloudSuites` | security/oc_tls.c:287-295 |
| `defaultSuites` | security/oc_tls.c:232-255 |
| `Prio.suites` | security/oc_tls.c:257-305 |
| `Glob` | security/oc_tls.c:227-230 |
| `Device` | security/oc_tls.c:1669, 1678 |
| `loadChain` | security/oc_tls.c:1648-1657 |
| `findSubject` | security/oc_cred.c:320-335 |
| `suitesFor` | security/oc_tls.c:1661-1729 |
| `identityFor` | security/oc_tls.c:1958-1986 |
| `afterRfotm` | security/oc_tls.c:1997-2000 |
| `newPeer` | security/oc_tls.c:2162-2183 |
| `HsOp` | security/oc_tls.c:153-180, 1580-1615, 1731-1745 |
| `Glob.init` | security/oc_tls.c:127, 173, 227-230 |
| `findPsk` | security/oc_cred.c:337-359 |
| `strip` | security/oc_tls.c:853-860 |
| `pskCb` | security/oc_tls.c:831-908 |

## Tls.PrfModel

| definition | code |
|---|---|
| `Hmac` | security/oc_tls.c:2356-2422 |
| `prfLoop` | security/oc_tls.c:2376-2424 |
| `prf` | security/oc_tls.c:2338-2434 |
| `keyBlockLen` | security/oc_tls.c:2472-2512 |
| `Session` | security/oc_tls.c:2048-2070 |
| `ownerPsk` | security/oc_tls.c:2436-2538 |
| `oxmName` | security/oc_doxm_internal.h:47-50 |
| `deviceKey` | security/oc_cred.c:1492-1513 |
| `toolKey` | security/oc_obt_otm_justworks.c:357-361; oc_obt_otm_randompin.c:357-362; oc_obt_otm_cert.c:358-362 |

## Tls.StreamModel

| definition | code |
|---|---|
| `Bytes` | security/oc_tls.c:2799-2875 |
| `StreamCfg` | security/oc_tls.c:2821; security/oc_tls.c:2829 |
| `Msg` | security/oc_tls.c:2802-2809 |
| `Rec` | security/oc_tls.c:2834 |
| `Rd` | security/oc_tls.c:2799-2875 |
| `subSize` | security/oc_tls.c:2828 |
| `shrink` | api/oc_message.c:230-247; security/oc_tls.c:2830 |
| `target` | security/oc_tls.c:2812-2832 |
| `readLoop` | security/oc_tls.c:2810-2874 |
| `recBytes` | security/oc_tls.c:2810-2874 |
| `Conn` | security/oc_tls_internal.h |
| `StreamEv` | security/oc_tls.c:3083 |
| `readTcp` | security/oc_tls.c:2799-2875 |
| `streamStep` | security/oc_tls.c:3024-3086 |
| `Conn.init` | security/oc_tls.c:2040-2045 |

## TlsPeers.Model

| definition | code |
|---|---|
| `Ep` | include/oc_endpoint.h |
| `eqEp` | api/oc_endpoint.c:685-734 |
| `Msg` | port/oc_connectivity.h |
| `Peer` | security/oc_tls_internal.h:50-79 |
| `Ev` | api/oc_events_internal.h; oc_tls.c:3116-3153 |
| `Dos` | security/oc_pstat_internal.h |
| `Cfg` | oc_tls.c:128-149 |
| `getPeer` | oc_tls.c:557-569 |
| `live` | oc_tls.c:329-340 |
| `after` | util/oc_list.c |
| `drop` | oc_tls.c:399-448; util/oc_process.c:400-439 |
| `dropEvents` | oc_tls.c:450-466 |
| `endAsserts` | oc_tls.c:540-545 |
| `freeCore` | oc_tls.c:468-546 |
| `notified` | oc_tls.c:552-554; api/oc_session_events.c:338-364 |
| `freePeer` | oc_tls.c:469-555 |
| `freeInvalid` | oc_tls.c:347-377 |
| `numPeers` | oc_tls.c:2012-2023 |
| `newEp` | oc_tls.c:2165-2189 |
| `newPeer` | oc_tls.c:2025-2046 |
| `addPeer` | oc_tls.c:2185-2202 |
| `addNew` | oc_tls.c:2114-2132, 2162-2216 |
| `addOrGet` | oc_tls.c:2218-2248 |
| `gotten` | oc_tls.c:3079-3085 |
| `recvPeer` | oc_tls.c:3025-3060 |
| `recvMsg` | oc_tls.c:3024-3086 |
| `take` | oc_tls.c:692-720 |
| `handshake` | oc_tls.c:2643-2657 |
| `queueSend` | oc_tls.c:2705-2753 |
| `sendPeer` | oc_tls.c:2689-2698 |
| `initConn` | oc_tls.c:2679-2754 |
| `wrote` | oc_tls.c:723-740 |
| `sendMsg` | oc_tls.c:2561-2590 |
| `writeLoop` | oc_tls.c:2616-2640 |
| `writeEv` | oc_tls.c:2609-2641 |
| `begun` | oc_tls.c:2915-2924 |
| `hsStep` | oc_tls.c:2878-2925 |
| `readEv` | oc_tls.c:3003-3022 |
| `handle` | oc_tls.c:3116-3153 |
| `inactLoop` | oc_tls.c:668-690 |
| `Op` | api/cloud/oc_cloud_access.c:70-88 |

## Trans.Model

| definition | code |
|---|---|
| `Tx` | messaging/coap/transactions_internal.h:73-84; transactions.c:127-132 |
| `Eff` | transactions.c:182 |
| `St` | transactions.c:76 |
| `maxRetransmit` | messaging/coap/constants.h:63 |
| `firstInterval` | transactions.c:152-155; transactions_internal.h:66-71 |
| `create` | transactions.c:89-119 |
| `arm` | transactions.c:147-170 |
| `sendNew` | transactions.c:121-201 |
| `clear` | transactions.c:203-214 |
| `received` | engine.c:1132-1140; transactions.c:215-227 |
| `fire` | util/oc_etimer.c:72-100 |
| `others` | transactions.c:291 |
| `closing` | transactions.c:291-296 |
| `freeEp` | transactions.c:274-305 |
| `walk` | transactions.c:243-261; security/oc_tls.c:2316-2330, 604-613, 539 |
| `check` | engine.c:1242-1244 |
| `exec` | api/oc_client_api.c |

## Uuid.Model

| definition | code |
|---|---|
| `idSize` | include/oc_uuid.h |
| `textMax` | include/oc_uuid.h |
| `isAlpha` | api/oc_uuid.c:55 |
| `charBits` | api/oc_uuid.c:55-86 |
| `parseLoop` | api/oc_uuid.c:51-98 |
| `ofStr` | api/oc_uuid.c:36-118 |
| `hexDigit` | api/oc_uuid.c:157 |
| `hex2` | api/oc_uuid.c:157 |
| `fmtLoop` | api/oc_uuid.c:147-164 |
| `toStr` | api/oc_uuid.c:130-166 |
| `gen` | api/oc_uuid.c:180-206 |

