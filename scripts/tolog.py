import json,sys
src=sys.argv[1]; tight=json.loads(sys.argv[2]) if len(sys.argv)>2 else {}
out=open('/verif/seeded/LOG.jsonl','a')
for l in open(src):
    r=json.loads(l)
    d=r.get('definition') or r['def']
    out.write(json.dumps({'definition':r['file'].replace('lean/','')+': '+d,'edit':r.get('edit') or ('`'+r['old']+'` -> `'+r['new']+'`'),'claim':r.get('claim',''),'failed':r['failed'],'survived':bool(r['built']),'tightened':tight.get(d,[]) if r['built'] else []})+'\n')
