import json,sys
d={}
for f in sys.argv[1:]:
    for l in open(f):
        j=json.loads(l); d[j['id']]=j
out=open('/verif/seeded/LOG.jsonl','w')
for k in sorted(d):
    j=d[k]
    ft=j['caught_by_claim'] or j['failed_property_theorems']
    r={'id':k,'definition':j['definition'],'edit':j['edit'],'claim':j['claim'],'verdict':j['verdict'],
       'theorems_failed':ft,'first_broken_lemmas':j['failed'][:6],'other_property_theorems_failed':len([t for t in j['failed_property_theorems'] if t not in ft]),'theorems_tightened':j.get('tightened',[])}
    if j.get('note'): r['note']=j['note']
    out.write(json.dumps(r)+'\n')
